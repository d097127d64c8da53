import Verif.Lemmas.SecdMain

/-! Programs that capture no continuation use no continuation twice. -/

namespace Meevax.Scheme

open Secd (Name Form Globals)

variable {free : Name → Nat}

/-- Values without continuations. -/
inductive Val.Plain : Val → Prop where
  | datum (d : Form) : Val.Plain (.datum d)
  | pair (l : Nat) : Val.Plain (.pair l)
  | prim (p : Nat) : Val.Plain (.prim p)
  | closure {body : Expr} (fs : List Name) (rest : Option Name) (ρ : Env)
      (h : Scheme.Plain body) : Val.Plain (.closure fs rest body ρ)

/-- Continuations with their tickets. -/
inductive Kont.Plain : Kont → List Nat → Prop where
  | halt : Kont.Plain .halt []
  | ite {t e : Expr} {κ : Kont} {is : List Nat} (ρ : Env) (ht : Scheme.Plain t)
      (he : Scheme.Plain e) (h : Kont.Plain κ is) : Kont.Plain (.ite t e ρ κ) is
  | seq {b : Expr} {κ : Kont} {is : List Nat} (ρ : Env) (hb : Scheme.Plain b)
      (h : Kont.Plain κ is) : Kont.Plain (.seq b ρ κ) is
  | set {κ : Kont} {is : List Nat} (x : Name) (ρ : Env) (h : Kont.Plain κ is) :
      Kont.Plain (.set x ρ κ) is
  | install {κ : Kont} {is : List Nat} (i : Nat) (h : Kont.Plain κ is) :
      Kont.Plain (.install i κ) is
  | arg {todo : List Expr} {vs : List Val} {f : Expr} {κ : Kont} {is : List Nat} (id : Nat) (ρ : Env)
      (ht : ∀ a ∈ todo, Scheme.Plain a) (hv : ∀ v ∈ vs, v.Plain) (hf : Scheme.Plain f)
      (h : Kont.Plain κ is) : Kont.Plain (.arg id todo vs f ρ κ) (id :: is)
  | fn {vs : List Val} {κ : Kont} {is : List Nat} (id : Nat) (hv : ∀ v ∈ vs, v.Plain)
      (h : Kont.Plain κ is) : Kont.Plain (.fn id vs κ) (id :: is)
  | init {todo : List Expr} {vs : List Val} {body : Expr} {κ : Kont} {is : List Nat} (id : Nat)
      (locs : List Nat) (ρ : Env) (ht : ∀ a ∈ todo, Scheme.Plain a) (hv : ∀ v ∈ vs, v.Plain)
      (hb : Scheme.Plain body) (h : Kont.Plain κ is) :
      Kont.Plain (.init id todo vs locs body ρ κ) (id :: is)

def Pairs.Plain (p : Pairs) : Prop := ∀ l, (p.pair l).1.Plain ∧ (p.pair l).2.Plain

structure Store.Plain (σ : Store) : Prop where
  vars : ∀ l v, σ.vars l = some v → v.Plain
  pairs : σ.pairs.Plain
  globals : ∀ g, (σ.globals g).Plain
  regs : ∀ i, (σ.regs i).Plain

/-- The tickets of the continuation are valid. -/
structure Tickets (σ : Store) (is : List Nat) : Prop where
  nodup : is.Nodup
  valid : ∀ i ∈ is, σ.pending i = true ∧ i < σ.nid

def PrimResult.Plain : PrimResult → Prop
  | .ok v p => v.Plain ∧ p.Plain
  | .throw v p => v.Plain ∧ p.Plain
  | .wrong => True

/-- The primitive procedures make no continuations. -/
def PlainPrims (P : Prims) : Prop :=
  ∀ n vs p, (∀ v ∈ vs, v.Plain) → p.Plain → (P n vs p).Plain

def State.Plain (st : State) : Prop :=
  (match st.ctl with
   | .eval e _ => Scheme.Plain e
   | .value v => v.Plain) ∧ st.σ.Plain ∧ ∃ is, st.κ.Plain is ∧ Tickets st.σ is

theorem Tickets.same {σ σ' : Store} {is : List Nat} (h : Tickets σ is)
    (h₁ : σ'.pending = σ.pending) (h₂ : σ'.nid = σ.nid) : Tickets σ' is :=
  ⟨h.nodup, fun i hi => by rw [h₁, h₂]; exact h.valid i hi⟩

theorem Tickets.issue {σ : Store} {is : List Nat} (h : Tickets σ is) :
    Tickets σ.issue (σ.nid :: is) := by
  refine ⟨List.nodup_cons.2 ⟨fun hi => ?_, h.nodup⟩, fun i hi => ?_⟩
  · exact Nat.lt_irrefl _ (h.valid _ hi).2
  · rcases List.mem_cons.1 hi with rfl | hi
    · simp [Store.issue, Secd.update]
    · have := h.valid i hi
      simp only [Store.issue, Secd.update]
      split
      · exact ⟨rfl, by omega⟩
      · exact ⟨this.1, by omega⟩

theorem Tickets.redeem {σ : Store} {i : Nat} {is : List Nat} (h : Tickets σ (i :: is)) :
    Tickets (σ.redeem i) is := by
  obtain ⟨h₁, h₂⟩ := h
  obtain ⟨h₃, h₄⟩ := List.nodup_cons.1 h₁
  refine ⟨h₄, fun j hj => ?_⟩
  have := h₂ j (by simp [hj])
  have hne : j ≠ i := fun h => h₃ (h ▸ hj)
  simpa [Store.redeem, Secd.update, hne] using this

theorem Store.Plain.same {σ σ' : Store} (h : σ.Plain) (h₁ : σ'.vars = σ.vars)
    (h₂ : σ'.pairs = σ.pairs) (h₃ : σ'.globals = σ.globals) (h₄ : σ'.regs = σ.regs) : σ'.Plain :=
  ⟨by rw [h₁]; exact h.vars, by rw [h₂]; exact h.pairs, by rw [h₃]; exact h.globals,
   by rw [h₄]; exact h.regs⟩

theorem Store.Plain.withPairs {σ : Store} (h : σ.Plain) {p : Pairs} (hp : p.Plain) :
    ({ σ with pairs := p } : Store).Plain := ⟨h.vars, hp, h.globals, h.regs⟩

theorem Store.Plain.bind {σ : Store} (h : σ.Plain) {vs : List (Option Val)}
    (hv : ∀ v, some v ∈ vs → v.Plain) : (σ.bind vs).2.Plain := by
  refine ⟨fun l v hl => ?_, h.pairs, h.globals, h.regs⟩
  simp only [Store.bind] at hl
  split at hl
  · cases hg : vs[l - σ.nvars]? with
    | none => simp [hg] at hl
    | some o =>
      simp [hg] at hl
      subst hl
      exact hv v (List.mem_of_getElem? hg)
  · exact h.vars l v hl

theorem Store.Plain.var {σ : Store} (h : σ.Plain) (l : Nat) {v : Val} (hv : v.Plain) :
    ({ σ with vars := Secd.update σ.vars l (some v) } : Store).Plain := by
  refine ⟨fun l' v' hl => ?_, h.pairs, h.globals, h.regs⟩
  simp only [Secd.update] at hl
  split at hl
  · cases hl; exact hv
  · exact h.vars _ _ hl

theorem Store.Plain.assign : ∀ {ls : List Nat} {vs : List Val} {σ : Store}, σ.Plain →
    (∀ v ∈ vs, v.Plain) → (σ.assign ls vs).Plain
  | [], _, σ, h, _ => by simpa [Store.assign] using h
  | _ :: _, [], σ, h, _ => by simpa [Store.assign] using h
  | l :: ls, v :: vs, σ, h, hv => by
    simp only [Store.assign]
    exact Store.Plain.assign (h.var l (hv v (by simp))) fun w hw => hv w (by simp [hw])

theorem Store.assign_tickets : ∀ (ls : List Nat) (vs : List Val) (σ : Store),
    (σ.assign ls vs).pending = σ.pending ∧ (σ.assign ls vs).nid = σ.nid
  | [], _, σ => by simp [Store.assign]
  | _ :: _, [], σ => by simp [Store.assign]
  | l :: ls, v :: vs, σ => by simpa only [Store.assign] using Store.assign_tickets ls vs _

theorem Pairs.Plain.cons {p : Pairs} (h : p.Plain) {a d : Val} (ha : a.Plain) (hd : d.Plain) :
    (p.cons a d).Plain := by
  intro l
  simp only [Pairs.cons]
  split
  · exact ⟨ha, hd⟩
  · exact h l

theorem Pairs.Plain.list : ∀ {vs : List Val} {p : Pairs}, p.Plain → (∀ v ∈ vs, v.Plain) →
    (p.list vs).1.Plain ∧ (p.list vs).2.Plain
  | [], p, h, _ => ⟨.datum _, h⟩
  | v :: vs, p, h, hv => by
    obtain ⟨h₁, h₂⟩ := Pairs.Plain.list (vs := vs) h fun w hw => hv w (by simp [hw])
    simp only [Pairs.list]
    exact ⟨.pair _, h₂.cons (hv v (by simp)) h₁⟩

/-- What a step leads to. -/
def Result.Plain : Result → Prop
  | .next st => st.Plain
  | .done v σ => v.Plain ∧ σ.Plain
  | .raise v σ => v.Plain ∧ σ.Plain
  | .wrong => True
  | .reentered => False

theorem Plain.operands {todo : List Expr} {vs : List Val} {f : Expr} {ρ : Env} {κ : Kont} {σ : Store}
    {is : List Nat} (ht : ∀ a ∈ todo, Scheme.Plain a) (hv : ∀ v ∈ vs, v.Plain)
    (hf : Scheme.Plain f) (hκ : κ.Plain is) (hσ : σ.Plain) (hi : Tickets σ is) :
    (operands todo vs f ρ κ σ).Plain := by
  cases todo with
  | nil => exact ⟨hf, hσ.same rfl rfl rfl rfl, _, .fn _ hv hκ, hi.issue⟩
  | cons a todo =>
    exact ⟨ht a (by simp), hσ.same rfl rfl rfl rfl, _,
      .arg _ _ (fun b hb => ht b (by simp [hb])) hv hf hκ, hi.issue⟩

theorem Plain.inits {todo : List Expr} {vs : List Val} {locs : List Nat} {body : Expr} {ρ : Env}
    {κ : Kont} {σ : Store} {is : List Nat} (ht : ∀ a ∈ todo, Scheme.Plain a)
    (hv : ∀ v ∈ vs, v.Plain) (hb : Scheme.Plain body) (hκ : κ.Plain is) (hσ : σ.Plain)
    (hi : Tickets σ is) : (inits todo vs locs body ρ κ σ).Plain := by
  cases todo with
  | nil =>
    exact ⟨hb, hσ.assign hv, _, hκ,
      hi.same (Store.assign_tickets _ _ _).1 (Store.assign_tickets _ _ _).2⟩
  | cons a todo =>
    exact ⟨ht a (by simp), hσ.same rfl rfl rfl rfl, _,
      .init _ _ _ (fun b hb => ht b (by simp [hb])) hv hb hκ, hi.issue⟩

theorem Plain.apply {P : Prims} (hP : PlainPrims P) {f : Val} {vs : List Val} {κ : Kont} {σ : Store}
    {is : List Nat} (hf : f.Plain) (hv : ∀ v ∈ vs, v.Plain) (hκ : κ.Plain is) (hσ : σ.Plain)
    (hi : Tickets σ is) : (apply P f vs κ σ).Plain := by
  cases hf with
  | datum d => exact ⟨.datum d, hσ⟩
  | pair l => exact ⟨.pair l, hσ⟩
  | prim p =>
    have := hP p vs σ.pairs hv hσ.pairs
    simp only [Scheme.apply]
    split
    · rename_i v p' heq
      rw [heq] at this
      exact ⟨this.1, hσ.withPairs this.2, is, hκ, hi.same rfl rfl⟩
    · rename_i v p' heq
      rw [heq] at this
      exact ⟨this.1, hσ.withPairs this.2⟩
    · trivial
  | closure fs rest ρ hb =>
    cases rest with
    | none =>
      simp only [Scheme.apply]
      split
      · exact ⟨hb, hσ.bind (by simpa using hv), is, hκ, hi.same rfl rfl⟩
      · trivial
    | some r =>
      simp only [Scheme.apply]
      split
      · have hl := Pairs.Plain.list (vs := vs.drop fs.length) hσ.pairs
          fun v h => hv v (List.mem_of_mem_drop h)
        refine ⟨hb, (hσ.withPairs hl.2).bind ?_, is, hκ, hi.same rfl rfl⟩
        intro v h
        obtain ⟨w, hw, hwv⟩ := List.mem_map.1 h
        cases hwv
        rcases List.mem_append.1 hw with h | h
        · exact hv v (List.mem_of_mem_take h)
        · cases List.mem_singleton.1 h; exact hl.1
      · trivial

theorem Plain.step {P : Prims} (hP : PlainPrims P) {st : State} (h : st.Plain) :
    (step free P st).Plain := by
  obtain ⟨ctl, κ, σ⟩ := st
  obtain ⟨hc, hσ, is, hκ, hi⟩ := h
  cases ctl with
  | eval e ρ =>
    dsimp only at hc hσ hκ hi
    cases hc with
    | const d => exact ⟨.datum d, hσ, is, hκ, hi⟩
    | var x =>
      simp only [Scheme.step]
      split
      · exact ⟨hσ.globals _, hσ, is, hκ, hi⟩
      · split
        · rename_i v hv
          exact ⟨hσ.vars _ _ hv, hσ, is, hκ, hi⟩
        · trivial
    | lam fs rest hb => exact ⟨.closure _ _ _ hb, hσ, is, hκ, hi⟩
    | app hf ha => exact Plain.operands (by simpa using ha) (by simp) hf hκ hσ hi
    | ite ha hb hc => exact ⟨ha, hσ, is, .ite _ hb hc hκ, hi⟩
    | set x he => exact ⟨he, hσ, is, .set _ _ hκ, hi⟩
    | letrec xs hes hb =>
      exact Plain.inits (by simpa using hes) (by simp) hb hκ (hσ.bind (by simp)) (hi.same rfl rfl)
    | seq ha hb => exact ⟨ha, hσ, is, .seq _ hb hκ, hi⟩
    | current i => exact ⟨hσ.regs _, hσ, is, hκ, hi⟩
    | install i he => exact ⟨he, hσ, is, .install _ hκ, hi⟩
  | value v =>
    dsimp only at hc hσ hκ hi
    cases hκ with
    | halt => exact ⟨hc, hσ⟩
    | ite ρ ht he hκ =>
      refine ⟨?_, hσ, is, hκ, hi⟩
      dsimp only
      split <;> assumption
    | seq ρ hb hκ => exact ⟨hb, hσ, is, hκ, hi⟩
    | set x ρ hκ =>
      simp only [Scheme.step]
      split
      · refine ⟨hc, ⟨hσ.vars, hσ.pairs, fun g => ?_, hσ.regs⟩, is, hκ, hi.same rfl rfl⟩
        simp only [Secd.update]
        split
        · exact hc
        · exact hσ.globals g
      · split
        · exact ⟨hc, hσ.var _ hc, is, hκ, hi.same rfl rfl⟩
        · trivial
    | install i hκ =>
      refine ⟨hc, ⟨hσ.vars, hσ.pairs, hσ.globals, fun g => ?_⟩, is, hκ, hi.same rfl rfl⟩
      simp only [Secd.update]
      split
      · exact hc
      · exact hσ.regs g
    | arg id ρ ht hv hf hκ =>
      have hp := (hi.valid id (by simp)).1
      simp only [Scheme.step, hp, if_true]
      exact Plain.operands ht (by simpa using ⟨hc, hv⟩) hf hκ (hσ.same rfl rfl rfl rfl) hi.redeem
    | fn id hv hκ =>
      have hp := (hi.valid id (by simp)).1
      simp only [Scheme.step, hp, if_true]
      exact Plain.apply hP hc hv hκ (hσ.same rfl rfl rfl rfl) hi.redeem
    | init id locs ρ ht hv hb hκ =>
      have hp := (hi.valid id (by simp)).1
      simp only [Scheme.step, hp, if_true]
      exact Plain.inits ht (by simpa using ⟨hc, hv⟩) hb hκ (hσ.same rfl rfl rfl rfl) hi.redeem

theorem Plain.run {P : Prims} (hP : PlainPrims P) : ∀ (n : Nat) {st : State}, st.Plain →
    match run free P n st with
    | .running st => st.Plain
    | .done v σ => v.Plain ∧ σ.Plain
    | .raise v σ => v.Plain ∧ σ.Plain
    | .wrong => True
    | .reentered => False
  | 0, st, h => h
  | n + 1, st, h => by
    have hs := Plain.step (free := free) hP h
    simp only [Scheme.run]
    cases hst : Scheme.step free P st with
    | next st' => rw [hst] at hs; exact Plain.run hP n hs
    | done v σ => rw [hst] at hs; exact hs
    | raise v σ => rw [hst] at hs; exact hs
    | wrong => trivial
    | reentered => rw [hst] at hs; exact hs

theorem Plain.toplevel {e : Expr} {σ : Store} (he : Scheme.Plain e) (hσ : σ.Plain) :
    (toplevel e σ).Plain := ⟨he, hσ, [], .halt, by simp, by simp⟩

theorem Plain.initial (g r : Nat → Base) : (initial g r).Plain := by
  have hb : ∀ b : Base, (ofBase b).Plain := by
    intro b; cases b
    · exact .datum _
    · exact .prim _
  exact ⟨by simp [Scheme.initial], fun l => ⟨.datum _, .datum _⟩, fun i => hb _, fun i => hb _⟩

theorem core_plain : PlainPrims core := by
  intro n vs p hv hp
  have hcar : ∀ x w, p.car x = some w → w.Plain := by
    intro x w h
    simp only [Pairs.car] at h
    split at h
    · cases h; exact (hp _).1
    · cases h; exact .datum _
    · cases h
  have hcdr : ∀ x w, p.cdr x = some w → w.Plain := by
    intro x w h
    simp only [Pairs.cdr] at h
    split at h
    · cases h; exact (hp _).2
    · cases h; exact .datum _
    · cases h
  unfold core
  split
  case h_1 => exact ⟨.pair _, hp.cons (hv _ (by simp)) (hv _ (by simp))⟩
  case h_2 =>
    split
    · exact ⟨hcar _ _ ‹_›, hp⟩
    · trivial
  case h_3 =>
    split
    · exact ⟨hcdr _ _ ‹_›, hp⟩
    · trivial
  case h_4 l v =>
    refine ⟨hv _ (by simp), fun l' => ?_⟩
    dsimp only
    split
    · exact ⟨hv _ (by simp), (hp _).2⟩
    · exact hp _
  case h_5 l v =>
    refine ⟨hv _ (by simp), fun l' => ?_⟩
    dsimp only
    split
    · exact ⟨(hp _).1, hv _ (by simp)⟩
    · exact hp _
  case h_6 => exact hp.list hv
  all_goals first | exact ⟨.datum _, hp⟩ | exact ⟨hv _ (by simp), hp⟩ | trivial

/-- A plain program never uses a continuation twice. -/
theorem Plain.faulty {P : Prims} (hP : PlainPrims P) {σ : Store} {es : List Expr}
    (h : Faulty free P σ es) : σ.Plain → (∀ e ∈ es, Scheme.Plain e) → InError free P σ es := by
  induction h with
  | here n h =>
    intro hσ he
    rcases h with h | h
    · exact .here n h
    · have := Plain.run (free := free) hP n (Plain.toplevel (he _ (List.mem_cons_self ..)) hσ)
      rw [h] at this
      exact this.elim
  | later n h _ ih =>
    intro hσ he
    have := Plain.run (free := free) hP n (Plain.toplevel (he _ (List.mem_cons_self ..)) hσ)
    rw [h] at this
    exact .later n h (ih this.2 fun e h => he e (by simp [h]))

theorem InError.faulty {P : Prims} {σ : Store} {es : List Expr} (h : InError free P σ es) :
    Faulty free P σ es := by
  induction h with
  | here n h => exact .here n (.inl h)
  | later n h _ ih => exact .later n h ih

/-- Where nothing is captured, everything is well placed. -/
theorem Parse.placed {G : Globals} {sc : Scopes} {f : Form} {it : Item} (h : Parse G sc f it) :
    match it with
    | .expr e => Scheme.Plain e → ∀ t, Placed t e
    | .args es => ∀ e ∈ es, Scheme.Plain e → ∀ t, Placed t e
    | .binds xs es => xs.length = es.length ∧ ∀ e ∈ es, Scheme.Plain e → ∀ t, Placed t e
    | .body e => Scheme.Plain e → ∀ t, Placed t e := by
  induction h with
  | var sc x => exact fun _ t => .var t x
  | self => exact fun _ t => .const t _
  | quote => exact fun _ t => .const t _
  | lambda _ _ _ ih => intro h t; cases h with | lam _ _ h => exact .lam t _ _ (ih h true)
  | app _ _ _ ih₁ ih₂ =>
    intro h t
    cases h with | app hf ha => exact .app t (ih₁ hf false) fun a h => ih₂ a h (ha a h) false
  | cond _ _ _ _ ih₁ ih₂ ih₃ =>
    intro h t
    cases h with | ite h₁ h₂ h₃ => exact .ite (ih₁ h₁ false) (ih₂ h₂ t) (ih₃ h₃ t)
  | cond₁ _ _ _ ih₁ ih₂ =>
    intro h t
    cases h with | ite h₁ h₂ h₃ => exact .ite (ih₁ h₁ false) (ih₂ h₂ t) (.const t _)
  | set _ _ ih => intro h t; cases h with | set _ h => exact .set t _ (ih h false)
  | define _ _ ih => intro h t; cases h with | set _ h => exact .set t _ (ih h false)
  | letrec _ _ _ ih₁ ih₂ =>
    intro h t
    cases h with
    | letrec _ h₁ h₂ => exact .letrec t _ ih₁.1 (fun e he => ih₁.2 e he (h₁ e he) false) (ih₂ h₂ true)
  | begin _ _ ih => exact ih
  | callcc => intro h; cases h
  | current n _ => exact fun _ t => .current t n
  | install n _ _ ih => intro h t; cases h with | install _ h => exact .install t n (ih h false)
  | noArgs => simp
  | arg _ _ ih₁ ih₂ =>
    intro e he
    rcases List.mem_cons.1 he with rfl | he
    · exact ih₁
    · exact ih₂ e he
  | noBinds => simp
  | bind _ _ ih₁ ih₂ =>
    refine ⟨by simp [ih₂.1], fun e he => ?_⟩
    rcases List.mem_cons.1 he with rfl | he
    · exact ih₁
    · exact ih₂.2 e he
  | last _ ih => exact ih
  | more _ _ ih₁ ih₂ =>
    intro h t
    cases h with | seq h₁ h₂ => exact .seq (ih₁ h₁ false) (ih₂ h₂ t)

end Meevax.Scheme
