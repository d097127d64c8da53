import Verif.Lemmas.Derived
import Verif.Spec.Builtins

/-! Stores that mean the same, and what primitive procedures do with them. -/

namespace Meevax.Surface

open Secd (Name Form)

variable {t r : Name} {μ μ' : Nat → Nat} {nx nx' : Nat}

theorem lookup_zip_map (μ : Nat → Nat) (x : Name) : ∀ (xs : List Name) (ls : List Nat),
    (xs.zip (ls.map μ)).lookup x = ((xs.zip ls).lookup x).map μ
  | [], _ => by simp
  | _ :: _, [] => by simp
  | y :: xs, l :: ls => by
    simp only [List.map_cons, List.zip_cons_cons, List.lookup_cons]
    split
    · rfl
    · exact lookup_zip_map μ x xs ls

theorem lookup_zip_mem {x : Name} {l : Nat} : ∀ {xs : List Name} {ls : List Nat},
    (xs.zip ls).lookup x = some l → l ∈ ls ∧ x ∈ xs
  | [], _, h => by simp at h
  | _ :: _, [], h => by simp at h
  | y :: xs, l' :: ls, h => by
    simp only [List.zip_cons_cons, List.lookup_cons] at h
    split at h
    · rename_i he
      cases h
      have : x = y := by simpa using he
      simp [this]
    · have := lookup_zip_mem h
      exact ⟨by simp [this.1], by simp [this.2]⟩

theorem lookup_append {ρ : Env} {x : Name} : ∀ {bs : Env}, (bs ++ ρ).lookup x = (bs.lookup x).or (ρ.lookup x)
  | [] => by simp
  | (y, l) :: bs => by
    simp only [List.cons_append, List.lookup_cons]
    split
    · rfl
    · exact lookup_append

theorem EnvRel.bind {H : Name → Prop} {ρ : Env} {ρ' : Scheme.Env} (h : EnvRel μ nx H ρ ρ')
    (xs : List Name) {ls : List Nat} (hl : ∀ l ∈ ls, l < nx) :
    EnvRel μ nx H (xs.zip ls ++ ρ) (xs.zip (ls.map μ) ++ ρ') := by
  intro x hx
  obtain ⟨h₁, h₂⟩ := h x hx
  rw [lookup_append, lookup_append, lookup_zip_map]
  cases hz : (xs.zip ls).lookup x with
  | none => simpa using ⟨h₁, h₂⟩
  | some l =>
    refine ⟨rfl, fun l' hl' => ?_⟩
    cases hl'
    exact hl _ (lookup_zip_mem hz).1

theorem EnvRel.hide {H : Name → Prop} {ρ : Env} {ρ' : Scheme.Env} (h : EnvRel μ nx H ρ ρ')
    {x : Name} (hx : H x) (l : Nat) : EnvRel μ nx H ρ ((x, l) :: ρ') := by
  intro y hy
  have : (y == x) = false := by
    simp only [beq_eq_false_iff_ne]
    exact fun h => hy (h ▸ hx)
  rw [List.lookup_cons, this]
  exact h y hy

theorem EnvRel.weaken {H H' : Name → Prop} {ρ : Env} {ρ' : Scheme.Env} (h : EnvRel μ nx H ρ ρ')
    (hs : ∀ x, H x → H' x) : EnvRel μ nx H' ρ ρ' :=
  fun x hx => h x fun h => hx (hs x h)

theorem VRel.truthy {v : Val} {v' : Scheme.Val} (h : VRel t r μ nx v v') : v'.truthy = v.truthy := by
  cases h with
  | datum d => cases d <;> first | rfl | (rename_i b; cases b <;> rfl)
  | pair | prim | closure => rfl

theorem PRel.mono {p : Pairs} {p' : Scheme.Pairs} (h : PRel t r μ nx p p')
    (he : Ext μ μ' nx nx') : PRel t r μ' nx' p p' :=
  ⟨h.next, fun l => (h.fst l).mono he, fun l => (h.snd l).mono he⟩

theorem view_eq {p : Pairs} {p' : Scheme.Pairs} (hp : PRel t r μ nx p p') :
    ∀ (n : Nat) {v : Val} {v' : Scheme.Val}, VRel t r μ nx v v' → view p n v = Scheme.view p' n v'
  | 0, _, _, _ => by simp [view, Scheme.view]
  | n + 1, _, _, h => by
    cases h with
    | datum d => simp [view, Scheme.view]
    | pair l => simp only [view, Scheme.view]; rw [view_eq hp n (hp.fst l), view_eq hp n (hp.snd l)]
    | prim | closure => simp [view, Scheme.view]

theorem PRel.cons {p : Pairs} {p' : Scheme.Pairs} (h : PRel t r μ nx p p') {a d : Val} {a' d' : Scheme.Val}
    (ha : VRel t r μ nx a a') (hd : VRel t r μ nx d d') : PRel t r μ nx (p.cons a d) (p'.cons a' d') := by
  refine ⟨by simp [Pairs.cons, Scheme.Pairs.cons, h.next], fun l => ?_, fun l => ?_⟩
  · simp only [Pairs.cons, Scheme.Pairs.cons, h.next]
    split
    · exact ha
    · exact h.fst l
  · simp only [Pairs.cons, Scheme.Pairs.cons, h.next]
    split
    · exact hd
    · exact h.snd l

theorem PRel.list {p : Pairs} {p' : Scheme.Pairs} (h : PRel t r μ nx p p') {vs : List Val}
    {vs' : List Scheme.Val} (hv : List.Forall₂ (VRel t r μ nx) vs vs') :
    VRel t r μ nx (p.list vs).1 (p'.list vs').1 ∧ PRel t r μ nx (p.list vs).2 (p'.list vs').2 := by
  induction hv with
  | nil => exact ⟨.datum .nil, h⟩
  | cons h₁ _ ih =>
    obtain ⟨i₁, i₂⟩ := ih
    simp only [Pairs.list, Scheme.Pairs.list]
    refine ⟨?_, i₂.cons h₁ i₁⟩
    rw [i₂.next]
    exact .pair _

/-- Results that mean the same. -/
inductive ResRel (t r : Name) (μ : Nat → Nat) (nx : Nat) : PrimResult → Scheme.PrimResult → Prop where
  | ok {v : Val} {v' : Scheme.Val} {p : Pairs} {p' : Scheme.Pairs} (hv : VRel t r μ nx v v')
      (hp : PRel t r μ nx p p') : ResRel t r μ nx (.ok v p) (.ok v' p')
  | throw {v : Val} {v' : Scheme.Val} {p : Pairs} {p' : Scheme.Pairs} (hv : VRel t r μ nx v v')
      (hp : PRel t r μ nx p p') : ResRel t r μ nx (.throw v p) (.throw v' p')
  | wrong : ResRel t r μ nx .wrong .wrong

theorem PRel.car {p : Pairs} {p' : Scheme.Pairs} (h : PRel t r μ nx p p') {v : Val} {v' : Scheme.Val}
    (hv : VRel t r μ nx v v') : Option.Rel (VRel t r μ nx) (p.car v) (p'.car v') := by
  cases hv with
  | datum d => cases d <;> first | exact .none | exact .some (.datum _)
  | pair l => exact .some (h.fst l)
  | prim | closure => exact .none

theorem PRel.cdr {p : Pairs} {p' : Scheme.Pairs} (h : PRel t r μ nx p p') {v : Val} {v' : Scheme.Val}
    (hv : VRel t r μ nx v v') : Option.Rel (VRel t r μ nx) (p.cdr v) (p'.cdr v') := by
  cases hv with
  | datum d => cases d <;> first | exact .none | exact .some (.datum _)
  | pair l => exact .some (h.snd l)
  | prim | closure => exact .none

theorem VRel.isPair {v : Val} {v' : Scheme.Val} (h : VRel t r μ nx v v') : v'.isPair = v.isPair := by
  cases h with
  | datum d => cases d <;> rfl
  | pair | prim | closure => rfl

theorem VRel.isNull {v : Val} {v' : Scheme.Val} (h : VRel t r μ nx v v') : v'.isNull = v.isNull := by
  cases h with
  | datum d => cases d <;> rfl
  | pair | prim | closure => rfl

/-- Primitive procedures that mean the same. -/
def PrimRel (t r : Name) (P : Prims) (P' : Scheme.Prims) : Prop :=
  ∀ μ nx n vs vs' p p', List.Forall₂ (VRel t r μ nx) vs vs' → PRel t r μ nx p p' →
    ResRel t r μ nx (P n vs p) (P' n vs' p')

theorem core_eq_rel {a b : Val} {a' b' : Scheme.Val} {p : Pairs} {p' : Scheme.Pairs}
    (ha : VRel t r μ nx a a') (hb : VRel t r μ nx b b') (hp : PRel t r μ nx p p') :
    ResRel t r μ nx (core 9 [a, b] p) (Scheme.core 9 [a', b'] p') := by
  cases ha with
  | datum d =>
    cases hb with
    | datum d' => cases d <;> cases d' <;> first | exact .wrong | exact .ok (.datum _) hp
    | pair l => cases d <;> first | exact .wrong | exact .ok (.datum _) hp
    | prim | closure => cases d <;> exact .wrong
  | pair l =>
    cases hb with
    | datum d' => cases d' <;> first | exact .wrong | exact .ok (.datum _) hp
    | pair | prim | closure => first | exact .wrong | exact .ok (.datum _) hp
  | prim =>
    cases hb with
    | datum d' => cases d' <;> exact .wrong
    | pair | prim | closure => first | exact .wrong | exact .ok (.datum _) hp
  | closure =>
    cases hb with
    | datum d' => cases d' <;> exact .wrong
    | pair | prim | closure => exact .wrong

theorem core_rel : PrimRel t r core Scheme.core := by
  intro μ nx n vs vs' p p' hv hp
  rcases n with _ | _ | _ | _ | _ | _ | _ | _ | _ | _ | _ | n
  · rcases hv with _ | ⟨h₁, _ | ⟨h₂, _ | ⟨h₃, h₄⟩⟩⟩ <;> try exact .wrong
    refine .ok ?_ (hp.cons h₁ h₂)
    rw [hp.next]
    exact .pair _
  · rcases hv with _ | ⟨h₁, _ | ⟨h₂, _⟩⟩ <;> try exact .wrong
    rename_i a b
    have := hp.car h₁
    show ResRel t r μ nx (match p.car a with | some v => .ok v p | none => .wrong)
      (match p'.car b with | some v => .ok v p' | none => .wrong)
    revert this
    generalize p.car a = x
    generalize p'.car b = y
    intro h
    cases h with
    | none => exact .wrong
    | some h => exact .ok h hp
  · rcases hv with _ | ⟨h₁, _ | ⟨h₂, _⟩⟩ <;> try exact .wrong
    rename_i a b
    have := hp.cdr h₁
    show ResRel t r μ nx (match p.cdr a with | some v => .ok v p | none => .wrong)
      (match p'.cdr b with | some v => .ok v p' | none => .wrong)
    revert this
    generalize p.cdr a = x
    generalize p'.cdr b = y
    intro h
    cases h with
    | none => exact .wrong
    | some h => exact .ok h hp
  · rcases hv with _ | ⟨h₁, _ | ⟨h₂, _ | ⟨h₃, h₄⟩⟩⟩ <;> try exact .wrong
    · cases h₁ <;> exact .wrong
    · cases h₁ with
      | pair l =>
        refine .ok h₂ ⟨hp.next, fun l' => ?_, fun l' => ?_⟩
        · by_cases h : l' = l
          · simpa [h] using h₂
          · simpa [h] using hp.fst l'
        · by_cases h : l' = l
          · simpa [h] using hp.snd l
          · simpa [h] using hp.snd l'
      | datum | prim | closure => exact .wrong
    · cases h₁ <;> exact .wrong
  · rcases hv with _ | ⟨h₁, _ | ⟨h₂, _ | ⟨h₃, h₄⟩⟩⟩ <;> try exact .wrong
    · cases h₁ <;> exact .wrong
    · cases h₁ with
      | pair l =>
        refine .ok h₂ ⟨hp.next, fun l' => ?_, fun l' => ?_⟩
        · by_cases h : l' = l
          · simpa [h] using hp.fst l
          · simpa [h] using hp.fst l'
        · by_cases h : l' = l
          · simpa [h] using h₂
          · simpa [h] using hp.snd l'
      | datum | prim | closure => exact .wrong
    · cases h₁ <;> exact .wrong
  · exact .ok (hp.list hv).1 (hp.list hv).2
  · rcases hv with _ | ⟨h₁, _ | ⟨h₂, _⟩⟩ <;> try exact .wrong
    rename_i a b
    show ResRel t r μ nx (.ok (.datum (.bool a.isPair)) p) (.ok (.datum (.bool b.isPair)) p')
    rw [h₁.isPair]
    exact .ok (.datum _) hp
  · rcases hv with _ | ⟨h₁, _ | ⟨h₂, _⟩⟩ <;> try exact .wrong
    rename_i a b
    show ResRel t r μ nx (.ok (.datum (.bool a.isNull)) p) (.ok (.datum (.bool b.isNull)) p')
    rw [h₁.isNull]
    exact .ok (.datum _) hp
  · rcases hv with _ | ⟨h₁, _ | ⟨h₂, _⟩⟩ <;> try exact .wrong
    rename_i a b
    show ResRel t r μ nx (.ok (.datum (.bool (!a.truthy))) p) (.ok (.datum (.bool (!b.truthy))) p')
    rw [h₁.truthy]
    exact .ok (.datum _) hp
  · rcases hv with _ | ⟨h₁, _ | ⟨h₂, _ | ⟨h₃, h₄⟩⟩⟩
    · exact .wrong
    · cases h₁ with
      | datum d => cases d <;> exact .wrong
      | pair | prim | closure => exact .wrong
    · exact core_eq_rel h₁ h₂ hp
    · cases h₁ with
      | datum d =>
        cases h₂ with
        | datum d' => cases d <;> cases d' <;> exact .wrong
        | pair | prim | closure => cases d <;> exact .wrong
      | pair | prim | closure =>
        cases h₂ with
        | datum d' => cases d' <;> exact .wrong
        | pair | prim | closure => exact .wrong
  · rcases hv with _ | ⟨h₁, _ | ⟨h₂, _⟩⟩ <;> try exact .wrong
    exact .throw h₁ hp
  · exact .wrong


/-! ### Stores -/

theorem option_rel_mono {o : Option Val} {o' : Option Scheme.Val} (h : Option.Rel (VRel t r μ nx) o o')
    (he : Ext μ μ' nx nx') : Option.Rel (VRel t r μ' nx') o o' := by
  cases h with
  | none => exact .none
  | some h => exact .some (h.mono he)

variable {σ : Store} {σ' : Scheme.Store} {ps : List (Nat × Scheme.Val)} {is : List Nat}

theorem SRel.drop {p : Nat × Scheme.Val} (h : SRel t r μ σ σ' (p :: ps)) : SRel t r μ σ σ' ps :=
  ⟨h.inj, h.lt, h.vars, h.pairs, h.globals, fun lv hlv => h.priv lv (by simp [hlv]), (List.nodup_cons.1 h.nodup).2⟩

theorem SRel.same {σ'' : Scheme.Store} (h : SRel t r μ σ σ' ps) (h₁ : σ''.vars = σ'.vars)
    (h₂ : σ''.nvars = σ'.nvars) (h₃ : σ''.pairs = σ'.pairs) (h₄ : σ''.globals = σ'.globals) :
    SRel t r μ σ σ'' ps :=
  ⟨h.inj, by rw [h₂]; exact h.lt, by rw [h₁]; exact h.vars, by rw [h₃]; exact h.pairs,
   by rw [h₄]; exact h.globals, by rw [h₁, h₂]; exact h.priv, h.nodup⟩

theorem SRel.issue (h : SRel t r μ σ σ' ps) : SRel t r μ σ σ'.issue ps := h.same rfl rfl rfl rfl

theorem SRel.redeem (h : SRel t r μ σ σ' ps) (i : Nat) : SRel t r μ σ (σ'.redeem i) ps :=
  h.same rfl rfl rfl rfl

theorem SRel.withPairs (h : SRel t r μ σ σ' ps) {p : Pairs} {p' : Scheme.Pairs}
    (hp : PRel t r μ σ.nvars p p') : SRel t r μ { σ with pairs := p } { σ' with pairs := p' } ps :=
  ⟨h.inj, h.lt, h.vars, hp, h.globals, h.priv, h.nodup⟩

theorem SRel.global (h : SRel t r μ σ σ' ps) {v : Val} {v' : Scheme.Val} (g : Nat)
    (hv : VRel t r μ σ.nvars v v') :
    SRel t r μ { σ with globals := Secd.update σ.globals g v }
      { σ' with globals := Secd.update σ'.globals g v' } ps := by
  refine ⟨h.inj, h.lt, h.vars, h.pairs, fun g' => ?_, h.priv, h.nodup⟩
  simp only [Secd.update]
  split
  · exact hv
  · exact h.globals g'

theorem SRel.var (h : SRel t r μ σ σ' ps) {v : Val} {v' : Scheme.Val} {l : Nat} (hl : l < σ.nvars)
    (hv : VRel t r μ σ.nvars v v') :
    SRel t r μ { σ with vars := Secd.update σ.vars l (some v) }
      { σ' with vars := Secd.update σ'.vars (μ l) (some v') } ps := by
  refine ⟨h.inj, h.lt, fun i hi => ?_, h.pairs, h.globals, fun lv hlv => ?_, h.nodup⟩
  · simp only [Secd.update]
    by_cases hil : i = l
    · simpa [hil] using Option.Rel.some hv
    · have : μ i ≠ μ l := fun e => hil (h.inj i l hi hl e)
      simpa [hil, this] using h.vars i hi
  · obtain ⟨h₁, h₂, h₃⟩ := h.priv lv hlv
    refine ⟨?_, h₂, h₃⟩
    have : lv.1 ≠ μ l := fun e => h₃ l hl e.symm
    simpa [Secd.update, this] using h₁

theorem assign_nvars : ∀ (ls : List Nat) (vs : List Val) (σ : Store), (σ.assign ls vs).nvars = σ.nvars
  | [], _, σ => by simp [Store.assign]
  | _ :: _, [], σ => by simp [Store.assign]
  | l :: ls, v :: vs, σ => by simpa only [Store.assign] using assign_nvars ls vs _

theorem SRel.assign : ∀ {ls : List Nat} {vs : List Val} {vs' : List Scheme.Val} {σ : Store}
    {σ' : Scheme.Store}, SRel t r μ σ σ' ps → (∀ l ∈ ls, l < σ.nvars) →
    List.Forall₂ (VRel t r μ σ.nvars) vs vs' →
    SRel t r μ (σ.assign ls vs) (σ'.assign (ls.map μ) vs') ps
  | [], _, _, _, _, h, _, _ => by simpa [Store.assign, Scheme.Store.assign] using h
  | _ :: _, [], _, _, _, h, _, hv => by
    cases hv
    simpa [Store.assign, Scheme.Store.assign] using h
  | l :: ls, v :: vs, _, _, _, h, hl, .cons hv hvs => by
    simp only [Store.assign, Scheme.Store.assign, List.map_cons]
    exact SRel.assign (h.var (hl l (by simp)) hv) (fun l' h' => hl l' (by simp [h'])) hvs

/-- New locations on both sides. -/
def grow (μ : Nat → Nat) (nx ns : Nat) (i : Nat) : Nat := if i < nx then μ i else ns + (i - nx)

theorem ext_grow (μ : Nat → Nat) (nx ns n : Nat) : Ext μ (grow μ nx ns) nx (nx + n) :=
  ⟨by omega, fun i hi => by simp [grow, hi]⟩

theorem bind_locs (μ : Nat → Nat) (nx ns n : Nat) :
    List.range' ns n = (List.range' nx n).map (grow μ nx ns) := by
  apply List.ext_getElem (by simp)
  intro i h₁ h₂
  simp only [List.getElem_range', List.getElem_map, grow]
  rw [if_neg (by omega)]
  omega

theorem SRel.bind (h : SRel t r μ σ σ' ps) {os : List (Option Val)} {os' : List (Option Scheme.Val)}
    (ho : List.Forall₂ (Option.Rel (VRel t r (grow μ σ.nvars σ'.nvars) (σ.nvars + os.length))) os os') :
    SRel t r (grow μ σ.nvars σ'.nvars) (σ.bind os).2 (σ'.bind os').2 ps := by
  have hlen := ho.length_eq
  have he := ext_grow μ σ.nvars σ'.nvars os.length
  refine ⟨fun i j hi hj hij => ?_, fun i hi => ?_, fun i hi => ?_, h.pairs.mono he, fun g => (h.globals g).mono he,
    fun lv hlv => ?_, h.nodup⟩
  · simp only [Store.bind] at hi hj
    by_cases h₁ : i < σ.nvars <;> by_cases h₂ : j < σ.nvars
    · simp only [grow, h₁, h₂, if_true] at hij
      exact h.inj i j h₁ h₂ hij
    · have := h.lt i h₁
      simp only [grow, h₁, h₂, if_true, if_false] at hij
      omega
    · have := h.lt j h₂
      simp only [grow, h₁, h₂, if_true, if_false] at hij
      omega
    · simp only [grow, h₁, h₂, if_false] at hij
      omega
  · simp only [Store.bind] at hi
    simp only [Scheme.Store.bind, grow]
    split
    · have := h.lt i ‹_›
      omega
    · omega
  · simp only [Store.bind] at hi
    simp only [Store.bind, Scheme.Store.bind]
    by_cases h₁ : i < σ.nvars
    · have h₂ := h.lt i h₁
      have e : grow μ σ.nvars σ'.nvars i = μ i := by simp [grow, h₁]
      rw [e, if_neg (by omega), if_neg (by omega)]
      exact option_rel_mono (h.vars i h₁) he
    · have e : grow μ σ.nvars σ'.nvars i = σ'.nvars + (i - σ.nvars) := by simp [grow, h₁]
      rw [e, if_pos (by omega), if_pos (by omega)]
      have e₂ : σ'.nvars + (i - σ.nvars) - σ'.nvars = i - σ.nvars := by omega
      rw [e₂]
      have hb : i - σ.nvars < os.length := by omega
      rw [List.getElem?_eq_getElem hb, List.getElem?_eq_getElem (by omega)]
      exact ho.get hb (by omega)
  · obtain ⟨h₁, h₂, h₃⟩ := h.priv lv hlv
    simp only [Scheme.Store.bind, Store.bind]
    refine ⟨by rw [if_neg (by omega)]; exact h₁, by omega, fun i hi => ?_⟩
    simp only [grow]
    split
    · exact h₃ i ‹_›
    · omega

/-- A new location for a temporary variable. -/
theorem SRel.temp (h : SRel t r μ σ σ' ps) (o : Option Scheme.Val) : SRel t r μ σ (σ'.bind [o]).2 ps := by
  refine ⟨h.inj, fun i hi => ?_, fun i hi => ?_, h.pairs, h.globals, fun lv hlv => ?_, h.nodup⟩
  · have := h.lt i hi
    simp only [Scheme.Store.bind, List.length_singleton]
    omega
  · have := h.lt i hi
    simp only [Scheme.Store.bind, List.length_singleton]
    rw [if_neg (by omega)]
    exact h.vars i hi
  · obtain ⟨h₁, h₂, h₃⟩ := h.priv lv hlv
    simp only [Scheme.Store.bind, List.length_singleton]
    exact ⟨by rw [if_neg (by omega)]; exact h₁, by omega, h₃⟩

/-- A new location for a temporary variable that keeps its value. -/
theorem SRel.keep (h : SRel t r μ σ σ' ps) (v : Scheme.Val) {σ'' : Scheme.Store}
    (h₁ : σ''.vars = Secd.update (σ'.bind [none]).2.vars σ'.nvars (some v))
    (h₂ : σ''.nvars = σ'.nvars + 1) (h₃ : σ''.pairs = σ'.pairs) (h₄ : σ''.globals = σ'.globals) :
    SRel t r μ σ σ'' ((σ'.nvars, v) :: ps) := by
  have ht := h.temp none
  refine ⟨h.inj, fun i hi => ?_, fun i hi => ?_, by rw [h₃]; exact h.pairs, by rw [h₄]; exact h.globals,
    fun lv hlv => ?_, ?_⟩
  · have := h.lt i hi
    omega
  · have := h.lt i hi
    rw [h₁]
    simp only [Secd.update]
    rw [if_neg (by omega)]
    exact ht.vars i hi
  · rcases List.mem_cons.1 hlv with rfl | hlv
    · rw [h₁]
      refine ⟨by simp [Secd.update], by simp only; omega, fun i hi => ?_⟩
      have := h.lt i hi
      simp only
      omega
    · obtain ⟨h₅, h₆, h₇⟩ := ht.priv lv hlv
      have := (h.priv lv hlv).2.1
      rw [h₁]
      simp only [Secd.update]
      exact ⟨by rw [if_neg (by omega)]; exact h₅, by omega, h₇⟩
  · simp only [List.map_cons, List.nodup_cons]
    refine ⟨fun hm => ?_, h.nodup⟩
    obtain ⟨lv, hlv, e⟩ := List.mem_map.1 hm
    have := (h.priv lv hlv).2.1
    omega

/-- The world in which a temporary variable has become the variable of the program that comes next. -/
def publish (μ : Nat → Nat) (nx l : Nat) (i : Nat) : Nat := if i < nx then μ i else l

theorem ext_publish (μ : Nat → Nat) (nx l : Nat) : Ext μ (publish μ nx l) nx (nx + 1) :=
  ⟨by omega, fun i hi => by simp [publish, hi]⟩

theorem SRel.publish {l : Nat} {v : Val} {v' : Scheme.Val} (h : SRel t r μ σ σ' ((l, v') :: ps))
    (hv : VRel t r (publish μ σ.nvars l) (σ.nvars + 1) v v') :
    SRel t r (publish μ σ.nvars l) (σ.bind [some v]).2 σ' ps := by
  have he := ext_publish μ σ.nvars l
  obtain ⟨p₁, p₂, p₃⟩ := h.priv (l, v') (by simp)
  simp only at p₁ p₂ p₃
  have hn : (σ.bind [some v]).2.nvars = σ.nvars + 1 := rfl
  have hlast : ∀ i, i < σ.nvars + 1 → ¬ i < σ.nvars → i = σ.nvars := fun i _ _ => by omega
  refine ⟨fun i j hi hj hij => ?_, fun i hi => ?_, fun i hi => ?_, h.pairs.mono he, fun g => (h.globals g).mono he,
    fun lv hlv => ?_, h.drop.nodup⟩
  · rw [hn] at hi hj
    by_cases h₁ : i < σ.nvars <;> by_cases h₂ : j < σ.nvars
    · simp only [Surface.publish, h₁, h₂, if_true] at hij
      exact h.inj i j h₁ h₂ hij
    · simp only [Surface.publish, h₁, h₂, if_true, if_false] at hij
      exact absurd hij (p₃ i h₁)
    · simp only [Surface.publish, h₁, h₂, if_true, if_false] at hij
      exact absurd hij.symm (p₃ j h₂)
    · omega
  · simp only [Surface.publish]
    split
    · exact h.lt i ‹_›
    · exact p₂
  · rw [hn] at hi
    by_cases h₁ : i < σ.nvars
    · simp only [Surface.publish, h₁, if_true, Store.bind, List.length_singleton]
      rw [if_neg (by omega)]
      exact option_rel_mono (h.vars i h₁) he
    · obtain rfl := hlast i hi h₁
      simp only [Surface.publish, Nat.lt_irrefl, if_false, Store.bind, List.length_singleton]
      rw [if_pos (by omega), p₁]
      simpa using Option.Rel.some hv
  · obtain ⟨h₁, h₂, h₃⟩ := h.priv lv (by simp [hlv])
    refine ⟨h₁, h₂, fun i hi => ?_⟩
    simp only [Surface.publish]
    split
    · exact h₃ i ‹_›
    · intro e
      have := h.nodup
      simp only [List.map_cons, List.nodup_cons] at this
      exact this.1 (e ▸ List.mem_map_of_mem hlv)

end Meevax.Surface
