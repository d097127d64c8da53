import Verif.Lemmas.Execute
import Verif.Model.Generator

/-! `eval` on nested machines and on a single one. -/

namespace Meevax.Execute

open Meevax.Secd

theorem asBody_append : ∀ p : Code, asBody (p ++ [.stop]) = p ++ [.ret]
  | [] => rfl
  | i :: p => by
    have ih := asBody_append p
    cases p with
    | nil => simp [asBody]
    | cons j p => 
      simp only [List.cons_append] at ih ⊢
      rw [asBody, ih]
      simp

mutual

/-- The control and the dump of the innermost machine, and of the single machine. -/
inductive Pos : List Frame → Code → Dump → Code → Dump → Prop where
  | bottom {c : Code} (h : Top c) : Pos [] c .nil c .nil
  | base {fs : List Frame} {p c c' : Code} {D : Dump} (h : ∀ i ∈ p, Inner i = true) (hc : c = p ++ [.stop])
      (hc' : c' = p ++ [.ret]) (hD : Under fs D) : Pos fs c .nil c' D
  | over {fs : List Frame} {c : Code} {d d' : Dump} (h : DRel fs d d') : Pos fs c d c d'

inductive DRel : List Frame → Dump → Dump → Prop where
  | code {fs : List Frame} {c c' : Code} {d d' : Dump} (h : Pos fs c d c' d') : DRel fs (.code c d) (.code c' d')
  | frame {fs : List Frame} {s : List Value} {e : Value} {c c' : Code} {d d' : Dump} (h : Pos fs c d c' d') :
      DRel fs (.frame s e c d) (.frame s e c' d')

/-- The dump of the single machine below the code of an expression. -/
inductive Under : List Frame → Dump → Prop where
  | call {i : Nat} {s : List Value} {e : Value} {c c' : Code} {d d' : Dump} {fs : List Frame} (h : Pos fs c d c' d') :
      Under (.waiting i false ⟨s, e, c, d⟩ .value :: fs) (.frame s e c' d')
  | tail {i : Nat} {m : Regs} {d' : Dump} {fs : List Frame} (h : DRel fs m.d d') :
      Under (.waiting i true m .value :: fs) d'

end

/-- The same state. -/
structure Same (C : Config) (m : Regs) (S : Store) : Prop where
  s : C.m.s = m.s
  e : C.m.e = m.e
  S : C.S = S
  pos : Pos C.frames C.m.c C.m.d m.c m.d

/-- Where the control is: inside of code, with the rest related; or at the end of an expression. -/
theorem Pos.inner {fs : List Frame} {i : Instr} {c : Code} {d : Dump} {c' : Code} {d' : Dump}
    (h : Pos fs (i :: c) d c' d') (hi : Inner i = true) : ∃ c₁, c' = i :: c₁ ∧ Pos fs c d c₁ d' := by
  cases h with
  | bottom h =>
    obtain ⟨p, hp, hc⟩ := h
    cases p with
    | nil =>
      simp only [List.nil_append, List.cons.injEq] at hc
      rw [hc.1] at hi; simp [Inner] at hi
    | cons j p =>
      simp only [List.cons_append, List.cons.injEq] at hc
      exact ⟨c, rfl, .bottom ⟨p, fun i hi => hp i (List.mem_cons_of_mem _ hi), hc.2⟩⟩
  | @base _ p _ _ D h hc hc' hD =>
    subst hc'
    cases p with
    | nil =>
      simp only [List.nil_append, List.cons.injEq] at hc
      rw [hc.1] at hi; simp [Inner] at hi
    | cons j p =>
      simp only [List.cons_append, List.cons.injEq] at hc
      obtain ⟨rfl, rfl⟩ := hc
      exact ⟨p ++ [.ret], rfl, .base (fun i hi => h i (List.mem_cons_of_mem _ hi)) rfl rfl hD⟩
  | over h => exact ⟨c, rfl, .over h⟩

theorem Pos.outer {fs : List Frame} {i : Instr} {c : Code} {d : Dump} {c' : Code} {d' : Dump}
    (h : Pos fs (i :: c) d c' d') (hi : Inner i = false) :
    (i = .stop ∧ fs = [] ∧ d = .nil ∧ c' = [.stop] ∧ d' = .nil) ∨
    (i = .stop ∧ d = .nil ∧ c' = [.ret] ∧ Under fs d') ∨ (c' = i :: c ∧ DRel fs d d') := by
  cases h with
  | bottom h =>
    obtain ⟨p, hp, hc⟩ := h
    cases p with
    | nil =>
      simp only [List.nil_append, List.cons.injEq] at hc
      exact .inl ⟨hc.1, rfl, rfl, by rw [hc.1, hc.2], rfl⟩
    | cons j p =>
      simp only [List.cons_append, List.cons.injEq] at hc
      have := hp j (List.mem_cons_self ..)
      rw [← hc.1, hi] at this; cases this
  | @base _ p _ _ D h hc hc' hD =>
    subst hc'
    cases p with
    | nil =>
      simp only [List.nil_append, List.cons.injEq] at hc
      exact .inr (.inl ⟨hc.1, rfl, rfl, hD⟩)
    | cons j p =>
      simp only [List.cons_append, List.cons.injEq] at hc
      have := h j (List.mem_cons_self ..)
      rw [← hc.1, hi] at this; cases this
  | over h => exact .inr (.inr ⟨rfl, h⟩)

theorem Pos.nil {fs : List Frame} {d : Dump} {c' : Code} {d' : Dump} (h : Pos fs [] d c' d') : c' = [] := by
  cases h with
  | bottom h => obtain ⟨p, _, hc⟩ := h; simp at hc
  | base _ hc _ _ => simp at hc
  | over h => rfl

theorem put_regs (S : Store) (i : Nat) (cells : Cells) (globals : Nat → Value) :
    S.put i ⟨cells, globals, S.regs i⟩ = { S with cells, globals } := by
  have : update S.regs i (S.regs i) = S.regs := by
    funext j; simp only [update]; split
    · next h => rw [h]
    · rfl
  simp [Store.put, this]

theorem unwind_null (K : Kernel) (x : Value) : ∀ (fs : List Frame) (S : Store), isNull S.handler = true →
    unwind K x fs S = .uncaught x S
  | [], _, _ => rfl
  | .catching :: fs, S, h => unwind_null K x fs S h
  | .waiting i tail m k :: fs, S, h => by simp only [unwind, h, if_true]; exact unwind_null K x fs S h

/-- What the nested machines do in a step, given what the single machine does. -/
def Matches (K : Kernel) (C : Config) : Flat → Prop
  | .next m S => ∃ C', step K C = .next C' ∧ Same C' m S
  | .done v S => step K C = .done v S
  | .raise x S => isNull S.handler = true → step K C = .uncaught x S
  | .exit n S => step K C = .exit n S
  | .stuck => step K C = .stuck
  | .outside => True

theorem same_mk {i : Nat} {s : List Value} {e : Value} {c : Code} {d : Dump} {fs : List Frame} {S S' : Store}
    {c' : Code} {d' : Dump} (hS : S = S') (h : Pos fs c d c' d') : Same ⟨i, ⟨s, e, c, d⟩, fs, S⟩ ⟨s, e, c', d'⟩ S' :=
  ⟨rfl, rfl, hS, h⟩

theorem sim_prim {Q : Nat → Value → Store → Simple} {K : Kernel} (hQ : ∀ p xs S j c S', Q p xs S = .eval j c S' → Top c)
    (hK : ∀ p xs S, K.prims p xs S = (Q p xs S).effect) {C : Config} {m : Regs} {p : Nat} {xs : Value} {tail : Bool}
    {m₁ m₂ : Regs} (hc : callee C.m = some (p, xs, tail, m₁)) (hf : callee m = some (p, xs, tail, m₂))
    (hr : ∀ v, (resume tail m₁ v = none ∧ resume tail m₂ v = none) ∨
      ∃ m₁' m₂', resume tail m₁ v = some m₁' ∧ resume tail m₂ v = some m₂' ∧
        m₁'.s = m₂'.s ∧ m₁'.e = m₂'.e ∧ Pos C.frames m₁'.c m₁'.d m₂'.c m₂'.d)
    (hu : Under (.waiting C.i tail m₁ .value :: C.frames)
      (if tail then m₂.d else .frame m₂.s m₂.e m₂.c m₂.d)) : Matches K C (flatStep Q K m C.S) := by
  have hstep : step K C = perform K C.i tail m₁ C.frames (K.prims p xs C.S) := by simp only [step, hc]
  simp only [flatStep, hf]
  rw [hK] at hstep
  cases hq : Q p xs C.S with
  | value v S =>
    rw [hq] at hstep
    simp only [Simple.effect, perform] at hstep
    rcases hr v with ⟨h₁, h₂⟩ | ⟨m₁', m₂', h₁, h₂, hs, he, hp⟩
    · rw [h₁] at hstep; simp only [h₂]; exact hstep
    · rw [h₁] at hstep; simp only [h₂]; exact ⟨_, hstep, hs, he, rfl, hp⟩
  | error x S =>
    rw [hq] at hstep
    intro hn
    rw [hstep]
    simp only [Simple.effect, perform, catchError, hn, if_true]
    exact unwind_null K x _ S hn
  | object x S =>
    rw [hq] at hstep
    simp only [Simple.effect, perform, catchObject] at hstep
    by_cases hx : K.isError x S.cells = true
    · simp only [hx, if_true] at hstep ⊢
      intro hn
      rw [hstep]; exact unwind_null K x _ S hn
    · simp only [hx] at hstep ⊢
      intro hn
      rw [hstep]; exact unwind_null K _ _ _ hn
  | exit n S => rw [hq] at hstep; exact hstep
  | eval j c S =>
    rw [hq] at hstep
    obtain ⟨q, hq', rfl⟩ := hQ _ _ _ _ _ _ hq
    simp only []
    refine ⟨_, hstep, rfl, rfl, rfl, ?_⟩
    simp only []
    rw [asBody_append]
    exact .base hq' rfl rfl hu
  | undefined => rw [hq] at hstep; exact hstep

theorem sim_step {Q : Nat → Value → Store → Simple} {K : Kernel} (hQ : ∀ p xs S j c S', Q p xs S = .eval j c S' → Top c)
    (hK : ∀ p xs S, K.prims p xs S = (Q p xs S).effect) {C : Config} {m : Regs} {S : Store} (h : Same C m S) :
    Matches K C (flatStep Q K m S) := by
  obtain ⟨i, ⟨s, e, c, d⟩, fs, S₀⟩ := C
  obtain ⟨s', e', c', d'⟩ := m
  obtain ⟨hs, he, hS, hp⟩ := h
  simp only at hs he hS hp
  subst hs he hS
  cases c with
  | nil =>
    obtain rfl := hp.nil
    simp [flatStep, callee, special, Secd.step, Matches, step]
  | cons ins c =>
    cases hi : Inner ins with
    | true =>
      obtain ⟨c₁, rfl, hp₁⟩ := hp.inner hi
      cases ins with
      | call =>
        match s with
        | .prim p :: xs :: s =>
          refine sim_prim hQ hK (C := ⟨i, ⟨.prim p :: xs :: s, e, .call :: c, d⟩, fs, S₀⟩) rfl rfl ?_ ?_
          · exact fun v => .inr ⟨_, _, rfl, rfl, rfl, rfl, hp₁⟩
          · exact .call hp₁
        | [] => simp [flatStep, callee, special, Secd.step, Matches, step, Secd.call]
        | [x] => cases x <;> simp [flatStep, callee, special, Secd.step, Matches, step, Secd.call]
        | .datum a :: xs :: s =>
          simp only [flatStep, callee, special, Secd.step, Matches, step, Secd.call, Store.heap, put_regs, catchError]
          intro hn
          rw [if_pos (by exact hn)]
          exact unwind_null K _ _ _ hn
        | .pair a :: xs :: s =>
          simp only [flatStep, callee, special, Secd.step, Matches, step, Secd.call, Store.heap, put_regs, catchError]
          intro hn
          rw [if_pos (by exact hn)]
          exact unwind_null K _ _ _ hn
        | .closure a b :: xs :: s =>
          simp only [flatStep, callee, special, Secd.step, Matches, step, Secd.call, Store.heap]
          exact ⟨_, rfl, same_mk (put_regs ..) (.over (.frame hp₁))⟩
        | .cont _ _ _ _ :: xs :: s => simp [flatStep, callee, special, Matches]
      | loadAbsolute g => exact ⟨_, rfl, same_mk (put_regs ..) hp₁⟩
      | loadConstant k => exact ⟨_, rfl, same_mk (put_regs ..) hp₁⟩
      | loadClosure k => exact ⟨_, rfl, same_mk (put_regs ..) hp₁⟩
      | loadContinuation k => trivial
      | current k => trivial
      | install k => trivial
      | dummy => exact ⟨_, rfl, same_mk (put_regs ..) hp₁⟩
      | loadRelative a b =>
        cases hh : (S₀.cells.head e a).bind fun x => S₀.cells.head x b with
        | none =>
          have h₁ : flatStep Q K ⟨s, e, .loadRelative a b :: c₁, d'⟩ S₀ = .stuck := by
            simp only [flatStep, callee, special, Secd.step, Option.bind_eq_bind]
            rw [← Option.bind_assoc, hh]; rfl
          rw [h₁]
          simp only [Matches, step, callee, Secd.step, Option.bind_eq_bind, Store.heap]
          rw [← Option.bind_assoc, hh]; rfl
        | some v =>
          have h₁ : flatStep Q K ⟨s, e, .loadRelative a b :: c₁, d'⟩ S₀ = .next ⟨v :: s, e, c₁, d'⟩ S₀ := by
            simp only [flatStep, callee, special, Secd.step, Option.bind_eq_bind]
            rw [← Option.bind_assoc, hh]; rfl
          rw [h₁]
          refine ⟨⟨i, ⟨v :: s, e, c, d⟩, fs, S₀.put i ⟨S₀.cells, S₀.globals, S₀.regs i⟩⟩, ?_, same_mk (put_regs ..) hp₁⟩
          simp only [step, callee, Secd.step, Option.bind_eq_bind, Store.heap]
          rw [← Option.bind_assoc, hh]; rfl
      | loadVariadic a b =>
        cases hh : (S₀.cells.head e a).bind fun x => S₀.cells.tail x b with
        | none =>
          have h₁ : flatStep Q K ⟨s, e, .loadVariadic a b :: c₁, d'⟩ S₀ = .stuck := by
            simp only [flatStep, callee, special, Secd.step, Option.bind_eq_bind]
            rw [← Option.bind_assoc, hh]; rfl
          rw [h₁]
          simp only [Matches, step, callee, Secd.step, Option.bind_eq_bind, Store.heap]
          rw [← Option.bind_assoc, hh]; rfl
        | some v =>
          have h₁ : flatStep Q K ⟨s, e, .loadVariadic a b :: c₁, d'⟩ S₀ = .next ⟨v :: s, e, c₁, d'⟩ S₀ := by
            simp only [flatStep, callee, special, Secd.step, Option.bind_eq_bind]
            rw [← Option.bind_assoc, hh]; rfl
          rw [h₁]
          refine ⟨⟨i, ⟨v :: s, e, c, d⟩, fs, S₀.put i ⟨S₀.cells, S₀.globals, S₀.regs i⟩⟩, ?_, same_mk (put_regs ..) hp₁⟩
          simp only [step, callee, Secd.step, Option.bind_eq_bind, Store.heap]
          rw [← Option.bind_assoc, hh]; rfl
      | select a b =>
        cases s with
        | nil => rfl
        | cons v s => exact ⟨_, rfl, same_mk (put_regs ..) (.over (.code hp₁))⟩
      | letrec =>
        match s with
        | .closure a (.pair l) :: xs :: s =>
          cases hh : (S₀.cells.setCar l xs).cdr e with
          | none =>
            have h₁ : flatStep Q K ⟨.closure a (.pair l) :: xs :: s, e, .letrec :: c₁, d'⟩ S₀ = .stuck := by
              simp only [flatStep, callee, special, Secd.step, enterLetrec, Option.bind_eq_bind, Option.bind_some, hh]
              rfl
            rw [h₁]
            simp only [Matches, step, callee, Secd.step, enterLetrec, Option.bind_eq_bind, Store.heap, Option.bind_some, hh]
            rfl
          | some e' =>
            have h₁ : flatStep Q K ⟨.closure a (.pair l) :: xs :: s, e, .letrec :: c₁, d'⟩ S₀ =
                .next ⟨[], .pair l, a, .frame s e' c₁ d'⟩ { S₀ with cells := S₀.cells.setCar l xs } := by
              simp only [flatStep, callee, special, Secd.step, enterLetrec, Option.bind_eq_bind, Option.bind_some, hh]
              rfl
            rw [h₁]
            refine ⟨⟨i, ⟨[], .pair l, a, .frame s e' c d⟩, fs, S₀.put i ⟨S₀.cells.setCar l xs, S₀.globals, S₀.regs i⟩⟩, ?_,
              same_mk (put_regs ..) (.over (.frame hp₁))⟩
            simp only [step, callee, Secd.step, enterLetrec, Option.bind_eq_bind, Store.heap, Option.bind_some, hh]
            rfl
        | [] => rfl
        | [x] =>
          cases x with
          | closure a b => cases b <;> rfl
          | _ => rfl
        | .datum _ :: _ :: _ => rfl
        | .pair _ :: _ :: _ => rfl
        | .prim _ :: _ :: _ => rfl
        | .cont _ _ _ _ :: _ :: _ => rfl
        | .closure _ (.datum _) :: _ :: _ => rfl
        | .closure _ (.prim _) :: _ :: _ => rfl
        | .closure _ (.closure _ _) :: _ :: _ => rfl
        | .closure _ (.cont _ _ _ _) :: _ :: _ => rfl
      | cons =>
        match s with
        | [] => rfl
        | [x] => rfl
        | x :: y :: s => exact ⟨_, rfl, same_mk (put_regs ..) hp₁⟩
      | drop =>
        cases s with
        | nil => rfl
        | cons v s => exact ⟨_, rfl, same_mk (put_regs ..) hp₁⟩
      | storeAbsolute g =>
        cases s with
        | nil => rfl
        | cons v s => exact ⟨_, rfl, same_mk (put_regs ..) hp₁⟩
      | storeRelative a b =>
        cases s with
        | nil => rfl
        | cons v s =>
          cases hh : (S₀.cells.head e a).bind fun x => S₀.cells.setHead x b v with
          | none =>
            have h₁ : flatStep Q K ⟨v :: s, e, .storeRelative a b :: c₁, d'⟩ S₀ = .stuck := by
              simp only [flatStep, callee, special, Secd.step, Option.bind_eq_bind]
              rw [← Option.bind_assoc, hh]; rfl
            rw [h₁]
            simp only [Matches, step, callee, Secd.step, Option.bind_eq_bind, Store.heap]
            rw [← Option.bind_assoc, hh]; rfl
          | some cells =>
            have h₁ : flatStep Q K ⟨v :: s, e, .storeRelative a b :: c₁, d'⟩ S₀ = .next ⟨v :: s, e, c₁, d'⟩ { S₀ with cells } := by
              simp only [flatStep, callee, special, Secd.step, Option.bind_eq_bind]
              rw [← Option.bind_assoc, hh]; rfl
            rw [h₁]
            refine ⟨⟨i, ⟨v :: s, e, c, d⟩, fs, S₀.put i ⟨cells, S₀.globals, S₀.regs i⟩⟩, ?_, same_mk (put_regs ..) hp₁⟩
            simp only [step, callee, Secd.step, Option.bind_eq_bind, Store.heap]
            rw [← Option.bind_assoc, hh]; rfl
      | storeVariadic a b =>
        cases s with
        | nil => rfl
        | cons v s =>
          cases hh : S₀.cells.setTail e a b v with
          | none =>
            have h₁ : flatStep Q K ⟨v :: s, e, .storeVariadic a b :: c₁, d'⟩ S₀ = .stuck := by
              simp only [flatStep, callee, special, Secd.step, Option.bind_eq_bind, hh]; rfl
            rw [h₁]
            simp only [Matches, step, callee, Secd.step, Option.bind_eq_bind, Store.heap, hh]; rfl
          | some cells =>
            have h₁ : flatStep Q K ⟨v :: s, e, .storeVariadic a b :: c₁, d'⟩ S₀ = .next ⟨v :: s, e, c₁, d'⟩ { S₀ with cells } := by
              simp only [flatStep, callee, special, Secd.step, Option.bind_eq_bind, hh]; rfl
            rw [h₁]
            refine ⟨⟨i, ⟨v :: s, e, c, d⟩, fs, S₀.put i ⟨cells, S₀.globals, S₀.regs i⟩⟩, ?_, same_mk (put_regs ..) hp₁⟩
            simp only [step, callee, Secd.step, Option.bind_eq_bind, Store.heap, hh]; rfl
      | tailSelect a b => simp [Inner] at hi
      | join => simp [Inner] at hi
      | tailCall => simp [Inner] at hi
      | tailLetrec => simp [Inner] at hi
      | ret => simp [Inner] at hi
      | stop => simp [Inner] at hi
    | false =>
      rcases hp.outer hi with ⟨rfl, rfl, rfl, rfl, rfl⟩ | ⟨rfl, rfl, rfl, hu⟩ | ⟨rfl, hd⟩
      · cases s with
        | nil => rfl
        | cons v s =>
          show step K _ = _
          simp only [step, callee, Secd.step, Store.heap, put_regs, leave]
      · cases s with
        | nil => cases d' <;> rfl
        | cons v s =>
          cases hu with
          | @call j s₁ e₁ c₁ c₂ d₁ d₂ fs h =>
            refine ⟨⟨j, ⟨v :: s₁, e₁, c₁, d₁⟩, fs, S₀.put i ⟨S₀.cells, S₀.globals, S₀.regs i⟩⟩, rfl, same_mk (put_regs ..) h⟩
          | @tail j m _ fs h =>
            obtain ⟨s₁, e₁, c₁, d₁⟩ := m
            cases h with
            | code h => rfl
            | @frame _ s₂ e₂ c₂ c₃ d₂ d₃ h =>
              exact ⟨⟨j, ⟨v :: s₂, e₂, c₂, d₂⟩, fs, S₀.put i ⟨S₀.cells, S₀.globals, S₀.regs i⟩⟩, rfl, same_mk (put_regs ..) h⟩
      · cases ins with
        | tailSelect a b =>
          cases s with
          | nil => rfl
          | cons v s => exact ⟨_, rfl, same_mk (put_regs ..) (.over hd)⟩
        | join =>
          cases hd with
          | code h => exact ⟨_, rfl, same_mk (put_regs ..) h⟩
          | frame h => rfl
        | tailCall =>
          match s with
          | .prim p :: xs :: s =>
            refine sim_prim hQ hK (C := ⟨i, ⟨.prim p :: xs :: s, e, .tailCall :: c, d⟩, fs, S₀⟩) rfl rfl ?_ ?_
            · intro v
              cases hd with
              | code h => exact .inl ⟨rfl, rfl⟩
              | frame h => exact .inr ⟨_, _, rfl, rfl, rfl, rfl, h⟩
            · exact .tail hd
          | [] => rfl
          | [x] => cases x <;> first | rfl | trivial
          | .datum a :: xs :: s =>
            simp only [flatStep, callee, special, Secd.step, Matches, step, Secd.tailCall, Store.heap, put_regs, catchError]
            intro hn
            rw [if_pos (by exact hn)]
            exact unwind_null K _ _ _ hn
          | .pair a :: xs :: s =>
            simp only [flatStep, callee, special, Secd.step, Matches, step, Secd.tailCall, Store.heap, put_regs, catchError]
            intro hn
            rw [if_pos (by exact hn)]
            exact unwind_null K _ _ _ hn
          | .closure a b :: xs :: s =>
            simp only [flatStep, callee, special, Secd.step, Matches, step, Secd.tailCall, Store.heap]
            exact ⟨_, rfl, same_mk (put_regs ..) (.over hd)⟩
          | .cont _ _ _ _ :: xs :: s => simp [flatStep, callee, special, Matches]
        | tailLetrec =>
          match s with
          | .closure a (.pair l) :: xs :: s => exact ⟨_, rfl, same_mk (put_regs ..) (.over hd)⟩
          | [] => rfl
          | [x] =>
            cases x with
            | closure a b => cases b <;> rfl
            | _ => rfl
          | .datum _ :: _ :: _ => rfl
          | .pair _ :: _ :: _ => rfl
          | .prim _ :: _ :: _ => rfl
          | .cont _ _ _ _ :: _ :: _ => rfl
          | .closure _ (.datum _) :: _ :: _ => rfl
          | .closure _ (.prim _) :: _ :: _ => rfl
          | .closure _ (.closure _ _) :: _ :: _ => rfl
          | .closure _ (.cont _ _ _ _) :: _ :: _ => rfl
        | ret =>
          cases s with
          | nil => cases hd <;> rfl
          | cons v s =>
            cases hd with
            | code h => rfl
            | frame h => exact ⟨_, rfl, same_mk (put_regs ..) h⟩
        | stop => cases hd <;> cases s <;> trivial
        | _ => simp [Inner] at hi

/-- What the nested machines do in `n` steps. -/
def MatchesRun (K : Kernel) (n : Nat) (C : Config) : Flat → Prop
  | .next m S => ∃ C', run K n C = .running C' ∧ Same C' m S
  | .done v S => run K n C = .done v S
  | .raise x S => isNull S.handler = true → run K n C = .uncaught x S
  | .exit k S => run K n C = .exit k S
  | .stuck => run K n C = .stuck
  | .outside => True

theorem sim_run {Q : Nat → Value → Store → Simple} {K : Kernel} (hQ : ∀ p xs S j c S', Q p xs S = .eval j c S' → Top c)
    (hK : ∀ p xs S, K.prims p xs S = (Q p xs S).effect) : ∀ (n : Nat) {C : Config} {m : Regs} {S : Store}, Same C m S →
    MatchesRun K n C (flatRun Q K n m S)
  | 0, C, m, S, h => ⟨C, rfl, h⟩
  | n + 1, C, m, S, h => by
    have hs := sim_step hQ hK h
    simp only [flatRun]
    cases hf : flatStep Q K m S with
    | next m' S' =>
      rw [hf] at hs
      obtain ⟨C', hC, h'⟩ := hs
      have ih := sim_run hQ hK n h'
      have hr : run K (n + 1) C = run K n C' := by rw [run_succ, hC]; rfl
      simp only []
      cases hm : flatRun Q K n m' S' <;> rw [hm] at ih <;> simp only [MatchesRun] at ih ⊢ <;> rw [hr] <;> exact ih
    | done v S' => rw [hf] at hs; simp only [MatchesRun, run_succ]; rw [hs]; rfl
    | raise x S' => rw [hf] at hs; simp only [MatchesRun, run_succ]; intro hn; rw [hs hn]; rfl
    | exit k S' => rw [hf] at hs; simp only [MatchesRun, run_succ]; rw [hs]; rfl
    | stuck => rw [hf] at hs; simp only [MatchesRun, run_succ]; rw [hs]; rfl
    | outside => trivial

/-! ### Compiled code -/

/-- Code in front of `k` that the control does not leave. -/
def Front (c k : Code) : Prop := ∃ p, (∀ i ∈ p, Inner i = true) ∧ c = p ++ k

theorem Front.refl (k : Code) : Front k k := ⟨[], by simp, rfl⟩
theorem Front.cons {i : Instr} {c k : Code} (hi : Inner i = true) (h : Front c k) : Front (i :: c) k := by
  obtain ⟨p, hp, rfl⟩ := h
  exact ⟨i :: p, by simpa [hi] using hp, rfl⟩
theorem Front.drop {i : Instr} {c k : Code} (hi : Inner i = true) (h : Front c (i :: k)) : Front c k := by
  obtain ⟨p, hp, rfl⟩ := h
  exact ⟨p ++ [i], fun j hj => by
    simp only [List.mem_append, List.mem_singleton] at hj
    rcases hj with hj | rfl
    · exact hp j hj
    · exact hi, by simp⟩
theorem Front.trans {a b c : Code} (h : Front a b) (h' : Front b c) : Front a c := by
  obtain ⟨p, hp, rfl⟩ := h
  obtain ⟨q, hq, rfl⟩ := h'
  exact ⟨p ++ q, fun j hj => by
    simp only [List.mem_append] at hj
    rcases hj with hj | hj
    · exact hp j hj
    · exact hq j hj, by simp⟩

theorem inner_load (x : Identity) : Inner (loadInstr x) = true := by cases x <;> rfl
theorem inner_store (x : Identity) : Inner (storeInstr x) = true := by cases x <;> rfl

theorem fronts {G : Globals} (hG : ∀ g, G.syn g ≠ some .callCC) (n : Nat) :
    (∀ (form : Form) (bv : List Form) (k c : Code), sizeOf form ≤ n → generate G form bv k false = some c → Front c k) ∧
    (∀ (form : Form) (bv : List Form) (k c : Code), sizeOf form ≤ n → genOperand G form bv k = some c → Front c k) ∧
    (∀ (form : Form) (bv : List Form) (k c : Code), sizeOf form ≤ n → genSequence G form bv k false = some c →
      Front c k) := by
  induction n with
  | zero =>
    refine ⟨?_, ?_, ?_⟩ <;> intro form bv k c hn <;> exact absurd hn (by cases form <;> simp)
  | succ n ih =>
    obtain ⟨ihg, iho, ihs⟩ := ih
    have hg : ∀ (form : Form) (bv : List Form) (k c : Code), sizeOf form ≤ n + 1 →
        generate G form bv k false = some c → Front c k := by
      intro form bv k c hn h
      have hkw : ∀ a, keyword G a bv ≠ some .callCC := by
        intro a
        unfold keyword
        split
        · split
          · exact hG _
          · simp
        · simp
      rw [generate.eq_def] at h
      split at h
      · cases h; exact (Front.refl k).cons (inner_load _)
      · rename_i a form
        simp only [Form.cons.sizeOf_spec] at hn
        split at h
        · split at h
          · cases h; exact (Front.refl k).cons rfl
          · cases h
        · split at h
          · cases h; exact (Front.refl k).cons rfl
          · cases h
        · split at h
          · simp only [Option.bind_eq_bind, Option.bind_eq_some_iff] at h
            obtain ⟨b, _, hb⟩ := h
            cases hb; exact (Front.refl k).cons rfl
          · cases h
        · split at h
          · simp only [Form.cons.sizeOf_spec] at hn
            simp only [Option.bind_eq_bind, Option.bind_eq_some_iff] at h
            obtain ⟨c₁, _, h⟩ := h
            split at h
            · simp only [Option.bind_some] at h
              exact (ihg _ _ _ _ (by omega) h).drop rfl
            · simp only [Option.bind_eq_some_iff] at h
              obtain ⟨c₂, _, h⟩ := h
              exact (ihg _ _ _ _ (by omega) h).drop rfl
            · cases h
          · cases h
        · split at h
          · simp only [Form.cons.sizeOf_spec] at hn
            exact (ihg _ _ _ _ (by omega) h).drop (inner_store _)
          · cases h
        · split at h
          · split at h
            · rename_i _ _ hm
              have := mapCadr_size hm
              simp only [Form.cons.sizeOf_spec] at hn
              simp only [Option.bind_eq_bind, Option.bind_eq_some_iff] at h
              obtain ⟨b, _, c', hc, h⟩ := h
              cases h
              exact (((iho _ _ _ _ (by omega) hc).drop rfl).drop rfl).cons rfl
            · cases h
          · cases h
        · exact ihs _ _ _ _ (by omega) h
        · split at h
          · split at h
            · cases h; exact ((Front.refl k).cons (inner_store _)).cons rfl
            · simp only [Form.cons.sizeOf_spec] at hn
              exact (ihg _ _ _ _ (by omega) h).drop (inner_store _)
            · cases h
          · cases h
        · exact absurd ‹_› (hkw _)
        · split at h
          · cases h; exact (Front.refl k).cons rfl
          · cases h
        · split at h
          · simp only [Form.cons.sizeOf_spec] at hn
            exact (ihg _ _ _ _ (by omega) h).drop rfl
          · cases h
        · cases h
        · simp only [Option.bind_eq_bind, Option.bind_eq_some_iff] at h
          obtain ⟨c', hc, h⟩ := h
          exact (iho _ _ _ _ (by omega) h).trans ((ihg _ _ _ _ (by omega) hc).drop rfl)
      · cases h; exact (Front.refl k).cons rfl
    refine ⟨hg, ?_, ?_⟩
    · intro form bv k c hn h
      rw [genOperand.eq_def] at h
      split at h
      · simp only [Form.cons.sizeOf_spec] at hn
        simp only [Option.bind_eq_bind, Option.bind_eq_some_iff] at h
        obtain ⟨c', hc, h⟩ := h
        exact (iho _ _ _ _ (by omega) h).trans ((ihg _ _ _ _ (by omega) hc).drop rfl)
      · exact hg _ _ _ _ hn h
    · intro form bv k c hn h
      rw [genSequence.eq_def] at h
      split at h
      · simp only [Form.cons.sizeOf_spec] at hn
        exact ihg _ _ _ _ (by omega) h
      · simp only [Form.cons.sizeOf_spec] at hn
        simp only [Option.bind_eq_bind, Option.bind_eq_some_iff] at h
        obtain ⟨c₁, h₁, c₂, h₂, h⟩ := h
        cases h
        obtain ⟨p, hp, rfl⟩ := ihg _ _ _ _ (by omega) h₁
        have := (ihs _ _ _ _ (by omega) h₂).cons (i := .drop) rfl
        exact Front.trans ⟨p, hp, by simp⟩ this
      · cases h

/-- Compiled expressions are code at the outermost level. -/
theorem compile_top {G : Globals} (hG : ∀ g, G.syn g ≠ some .callCC) {form : Form} {c : Code}
    (h : compile G form = some c) : Top c := (fronts hG _).1 _ _ _ _ (Nat.le_refl _) h

end Meevax.Execute
