import Verif.Spec.LinearUpdate
import Verif.Props.Lists

/-! Lemmas for C90: the linear update procedures of SRFI 1. -/

namespace Meevax.Linear

open Meevax.Lists Spec

variable {S : Type}

/-! ### Small facts -/

theorem chainAt_of_seg {h : Heap} {x t : Obj} {as : List Nat} (s : Seg h x as t) :
    chainAt h x as.length = t ∧ ∀ m, m < as.length → isPair (chainAt h x m) = true := by
  induction s with
  | nil => exact ⟨rfl, by simp⟩
  | @cons a as t ha s ih =>
    have shift : ∀ n, chainAt h (.pair a) (n + 1) = chainAt h (h.cdr a) n := by
      intro n
      induction n with
      | zero => exact chainAt_pair (n := 0) rfl
      | succ n ihn => simp only [chainAt] at ihn ⊢; rw [ihn]
    refine ⟨by rw [List.length_cons, shift]; exact ih.1, fun m hm => ?_⟩
    cases m with
    | zero => rfl
    | succ m => rw [shift]; exact ih.2 m (by simpa using hm)

theorem isProperList_seg {h : Heap} {x t : Obj} {as : List Nat} (s : Seg h x as t) (ht : isPair t = false) :
    isProperList h x = some (isNull t) := by
  obtain ⟨e, p⟩ := chainAt_of_seg s
  have w := floyd_ends (by rw [e]; exact ht) p _ 0 rfl (Nat.zero_le _)
  rw [e] at w
  exact w.proper

theorem nullList_seg {h : Heap} {x : Obj} {as : List Nat} (s : Seg h x as .null) : nullList h x = some (isNull x) := by
  simp [nullList, isProperList_seg s rfl, isNull]

@[simp] theorem setCdrOf_pair (h : Heap) (a : Nat) (y : Obj) : setCdrOf h (.pair a) y = some (setCdr h a y) := rfl

@[simp] theorem setCarOf_pair (h : Heap) (a : Nat) (y : Obj) : setCarOf h (.pair a) y = some (setCar h a y) := rfl

theorem Spec.Relinked.refl (h : Heap) (as : List Nat) : Relinked h h as := ⟨rfl, fun _ => rfl, fun _ _ => rfl⟩

theorem Spec.Relinked.onlyCdrs {h h' : Heap} {as : List Nat} (r : Relinked h h' as) : OnlyCdrs h h' as :=
  ⟨Nat.le_of_eq r.next.symm, fun a _ => r.car a, fun a _ => r.cdr a⟩

theorem Spec.Relinked.mono {h h' : Heap} {as bs : List Nat} (r : Relinked h h' as) (sub : ∀ a ∈ as, a ∈ bs) :
    Relinked h h' bs := ⟨r.next, r.car, fun a ha => r.cdr a fun hm => ha (sub a hm)⟩

theorem Spec.Relinked.trans {h h' h'' : Heap} {as : List Nat} (r : Relinked h h' as) (q : Relinked h' h'' as) :
    Relinked h h'' as :=
  ⟨q.next.trans r.next, fun a => (q.car a).trans (r.car a), fun a ha => (q.cdr a ha).trans (r.cdr a ha)⟩

theorem Spec.Relinked.setCdr {h : Heap} {as : List Nat} {a : Nat} (y : Obj) (ha : a ∈ as) :
    Relinked h (setCdr h a y) as := by
  refine ⟨rfl, fun _ => rfl, fun b hb => ?_⟩
  have : b ≠ a := fun e => hb (e ▸ ha)
  simp [Lists.setCdr, this]

theorem _root_.Meevax.Lists.OnlyCdrs.refl (h : Heap) (as : List Nat) : OnlyCdrs h h as :=
  ⟨Nat.le_refl _, fun _ _ => rfl, fun _ _ _ => rfl⟩

theorem _root_.Meevax.Lists.OnlyCdrs.mono {h h' : Heap} {as bs : List Nat} (r : OnlyCdrs h h' as) (sub : ∀ a ∈ as, a ∈ bs) :
    OnlyCdrs h h' bs := ⟨r.next, r.car, fun a l ha => r.cdr a l fun hm => ha (sub a hm)⟩

theorem _root_.Meevax.Lists.OnlyCdrs.trans {h h' h'' : Heap} {as : List Nat} (r : OnlyCdrs h h' as) (q : OnlyCdrs h' h'' as) :
    OnlyCdrs h h'' as :=
  ⟨Nat.le_trans r.next q.next, fun a l => (q.car a (Nat.lt_of_lt_of_le l r.next)).trans (r.car a l),
   fun a l ha => (q.cdr a (Nat.lt_of_lt_of_le l r.next) ha).trans (r.cdr a l ha)⟩

theorem pick_mem {α : Type} {b : Bool} {xs : List α} {bs : List Bool} {x : α} (hx : x ∈ pick b xs bs) : x ∈ xs := by
  induction xs generalizing bs with
  | nil => simp [pick] at hx
  | cons y ys ih =>
    cases bs with
    | nil => simp [pick] at hx
    | cons c cs =>
      simp only [pick] at hx
      split at hx
      · rcases List.mem_cons.1 hx with e | m
        · simp [e]
        · exact List.mem_cons_of_mem _ (ih m)
      · exact List.mem_cons_of_mem _ (ih hx)

theorem pick_map {α β : Type} (f : α → β) (b : Bool) (xs : List α) (bs : List Bool) :
    (pick b xs bs).map f = pick b (xs.map f) bs := by
  induction xs generalizing bs with
  | nil => simp [pick]
  | cons x xs ih =>
    cases bs with
    | nil => simp [pick]
    | cons c cs =>
      simp only [pick, List.map_cons]
      split <;> simp [ih]

theorem pick_not {α : Type} (b : Bool) (xs : List α) (bs : List Bool) :
    pick b xs (bs.map (!·)) = pick (!b) xs bs := by
  induction xs generalizing bs with
  | nil => simp [pick]
  | cons x xs ih =>
    cases bs with
    | nil => simp [pick]
    | cons c cs =>
      simp only [pick, List.map_cons, ih]
      cases b <;> cases c <;> simp

theorem answers_complement (P : Pred S) (h : Heap) (vs : List Obj) (s : S) :
    answers (fun v s => complement P v h s) vs s =
      (answers (fun v s => P v h s) vs s).map fun (bs, s) => (bs.map (!·), s) := by
  induction vs generalizing s with
  | nil => rfl
  | cons v vs ih =>
    simp only [answers, complement, Option.bind_eq_bind]
    cases P v h s with
    | none => rfl
    | some r =>
      obtain ⟨b, s1⟩ := r
      simp only [Option.map_some, Option.bind_some]
      have := ih s1
      simp only [complement] at this
      rw [this]
      cases answers (fun v s => P v h s) vs s1 <;> rfl

theorem answers_congr {q q' : Test S} {vs : List Obj} (e : ∀ v ∈ vs, ∀ s, q v s = q' v s) (s : S) :
    answers q vs s = answers q' vs s := by
  induction vs generalizing s with
  | nil => rfl
  | cons v vs ih =>
    simp only [answers]
    rw [e v (by simp) s]
    have ih := ih fun v hv => e v (List.mem_cons_of_mem _ hv)
    simp only [ih]

theorem answers_length {q : Test S} {vs : List Obj} {s s' : S} {bs : List Bool}
    (e : answers q vs s = some (bs, s')) : bs.length = vs.length := by
  induction vs generalizing s s' bs with
  | nil => simp [answers] at e; simp [← e.1]
  | cons v vs ih =>
    simp only [answers, Option.bind_eq_bind, Option.bind_eq_some_iff] at e
    obtain ⟨⟨b, s1⟩, _, ⟨cs, s2⟩, e2, e3⟩ := e
    simp only [Option.some.injEq, Prod.mk.injEq] at e3
    rw [← e3.1, List.length_cons, List.length_cons, ih e2]

/-! ### filter! -/

theorem filterBang_spec (P : Pred S) {h : Heap} {t : Obj} (ht : isPair t = false) {x : Obj} {as : List Nat}
    (seg : Seg h x as t) (s : S) :
    After (answers (fun v s => P v h s) (as.map h.car) s) (filterBang P x h s) fun bs x' h' =>
      Seg h' x' (pick true as bs) t ∧ Relinked h h' as := by
  have nd := seg.nodup ht
  induction seg generalizing s with
  | nil x =>
    rw [filterBang]
    simp [answers, After, ht, pick, Seg.nil, Relinked.refl]
  | @cons a as t ha seg ih =>
    have ih := fun s => ih ht s (List.nodup_cons.1 nd).2
    have na : a ∉ as := (List.nodup_cons.1 nd).1
    rw [filterBang]
    simp only [isPair, if_true, car_pair, cdr_pair, List.map_cons, answers, Option.bind_eq_bind, Option.bind_some]
    cases hp : P (h.car a) h s with
    | none => simp [After]
    | some r =>
      obtain ⟨b, s1⟩ := r
      simp only [Option.bind_some]
      have ih := ih s1
      cases hb : answers (fun v s => P v h s) (as.map h.car) s1 with
      | none =>
        rw [hb] at ih
        simp only [After] at ih
        simp only [Option.bind_none, After, ih]
        cases b <;> simp
      | some r =>
        obtain ⟨bs, s2⟩ := r
        rw [hb] at ih
        obtain ⟨x', h', e, sg, rel⟩ := ih
        simp only [Option.bind_some, After]
        cases b with
        | false =>
          refine ⟨x', h', by simp [e], ?_, rel.mono fun _ => List.mem_cons_of_mem _⟩
          simpa [pick] using sg
        | true =>
          refine ⟨.pair a, setCdr h' a x', by simp [e], ?_, ?_⟩
          · simp only [pick, if_true]
            refine .cons (by simpa [setCdr, rel.next] using ha) ?_
            have : (setCdr h' a x').cdr a = x' := by simp [setCdr]
            rw [this]
            exact sg.setCdr fun hm => na (pick_mem hm)
          · exact (rel.mono fun _ => List.mem_cons_of_mem _).trans (Relinked.setCdr x' (by simp))

/-! ### partition! -/

theorem scan_spec (P : Pred S) {h0 : Heap} {L : List Nat} {t : Obj} (ht : isPair t = false) (as : List Nat) :
    ∀ {h : Heap} {x : Obj} {p q : Nat} (inside : Bool) (s : S), Seg h x as t → as.Nodup → Relinked h0 h L →
      p ∈ L → q ∈ L → (∀ a ∈ as, a ∈ L) → Steady h0 L (as.map h0.car) P → h.cdr p = x → p ≠ q → p ∉ as → q ∉ as →
      After (answers (fun v s => P v h0 s) (as.map h0.car) s)
        ((scan P inside (.pair p) (.pair q) x h s).map fun (h, s) => ((), h, s)) fun bs _ h' =>
        Seg h' (h'.cdr p) (pick inside as bs) t ∧ Seg h' (h'.cdr q) (pick (!inside) as bs) t ∧
          Relinked h h' (p :: q :: as) := by
  induction as with
  | nil =>
    intro h x p q inside s seg _ _ _ _ _ _ hp pq _ _
    cases seg
    rw [scan]
    simp only [ht, answers, List.map_nil, setCdrOf_pair, Option.bind_eq_bind, Option.bind_some, After, pick]
    refine ⟨(), setCdr h q t, rfl, ?_, ?_, Relinked.setCdr t (by simp)⟩
    · have : (setCdr h q t).cdr p = t := by simp [setCdr, pq, hp]
      rw [this]
      exact .nil _
    · have : (setCdr h q t).cdr q = t := by simp [setCdr]
      rw [this]
      exact .nil _
  | cons a as ih =>
    intro h x p q inside s seg nd rel pL qL sub st hp pq pa qa
    cases seg with
    | cons ha seg =>
    have nda := List.nodup_cons.1 nd
    have st' : Steady h0 L (as.map h0.car) P := fun v hv => st v (by simp only [List.map_cons]; exact .tail _ hv)
    have pa' : p ≠ a ∧ p ∉ as := by simpa using pa
    have qa' : q ≠ a ∧ q ∉ as := by simpa using qa
    have sub' : ∀ b ∈ as, b ∈ L := fun b hb => sub b (by simp [hb])
    rw [scan]
    simp only [isPair_pair, if_true, car_pair, cdr_pair, List.map_cons, answers, Option.bind_eq_bind,
      Option.bind_some, setCdrOf_pair]
    rw [rel.car a, st (h0.car a) (by simp) h s rel.onlyCdrs]
    cases hP : P (h0.car a) h0 s with
    | none => simp [After]
    | some r =>
      obtain ⟨b, s1⟩ := r
      simp only [Option.bind_some]
      by_cases hb : b = inside
      · subst hb
        simp only [if_true]
        have ih := ih b s1 seg nda.2 rel (sub a (by simp)) qL sub' st' rfl (Ne.symm qa'.1) nda.1 qa'.2
        cases hA : answers (fun v s => P v h0 s) (as.map h0.car) s1 with
        | none =>
          rw [hA] at ih
          exact ih
        | some r =>
          obtain ⟨bs, s2⟩ := r
          rw [hA] at ih
          obtain ⟨_, h', e, i1, i2, i3⟩ := ih
          have keep : h'.cdr p = .pair a := by
            rw [i3.cdr p (by simp [pa'.1, pq, pa'.2]), hp]
          refine ⟨(), h', e, ?_, ?_, ?_⟩
          · rw [keep]
            simp only [pick, if_true]
            exact .cons (by rw [i3.next]; exact ha) i1
          · simp only [pick]
            rw [if_neg (by cases b <;> simp)]
            exact i2
          · refine ⟨i3.next, i3.car, fun c hc => i3.cdr c ?_⟩
            simp only [List.mem_cons, not_or] at hc ⊢
            exact ⟨hc.2.2.1, hc.2.1, hc.2.2.2⟩
      · rw [if_neg hb]
        have hb' : b = !inside := by cases b <;> cases inside <;> simp_all
        have cdra : (setCdr h q (.pair a)).cdr a = h.cdr a := by simp [setCdr, Ne.symm qa'.1]
        have seg1 : Seg (setCdr h q (.pair a)) (h.cdr a) as t := seg.setCdr qa'.2
        have rel1 : Relinked h0 (setCdr h q (.pair a)) L := rel.trans (Relinked.setCdr _ qL)
        have ih := ih (!inside) s1 seg1 nda.2 rel1 (sub a (by simp)) pL sub' st' cdra (Ne.symm pa'.1) nda.1 pa'.2
        rw [cdra]
        cases hA : answers (fun v s => P v h0 s) (as.map h0.car) s1 with
        | none =>
          rw [hA] at ih
          exact ih
        | some r =>
          obtain ⟨bs, s2⟩ := r
          rw [hA] at ih
          obtain ⟨_, h', e, i1, i2, i3⟩ := ih
          have keep : h'.cdr q = .pair a := by
            rw [i3.cdr q (by simp [qa'.1, Ne.symm pq, qa'.2])]
            simp [setCdr]
          refine ⟨(), h', e, ?_, ?_, ?_⟩
          · simp only [pick]
            rw [if_neg hb]
            simpa using i2
          · rw [keep]
            simp only [pick]
            rw [if_pos hb']
            exact .cons (by rw [i3.next]; exact ha) i1
          · refine ⟨i3.next, i3.car, fun c hc => ?_⟩
            simp only [List.mem_cons, not_or] at hc
            rw [i3.cdr c (by simp only [List.mem_cons, not_or]; exact ⟨hc.2.2.1, hc.1, hc.2.2.2⟩)]
            simp [setCdr, hc.2.1]

theorem partitionLoop_spec (P : Pred S) {h : Heap} {L : List Nat} {t : Obj} (ht : isPair t = false)
    (inside : Bool) (first : Obj) (as : List Nat) :
    ∀ {x : Obj} {p : Nat} (s : S), Seg h x as t → as.Nodup → p ∈ L → (∀ a ∈ as, a ∈ L) →
      Steady h L (as.map h.car) P → h.cdr p = x → p ∉ as →
      After (answers (fun v s => P v h s) (as.map h.car) s) (partitionLoop P inside first (.pair p) x h s)
        fun bs r h' => ∃ other, r = (if inside then (first, other) else (other, first)) ∧
          Seg h' (h'.cdr p) (pick inside as bs) t ∧ Seg h' other (pick (!inside) as bs) t ∧
          Relinked h h' (p :: as) := by
  induction as with
  | nil =>
    intro x p s seg _ _ _ _ hp _
    cases seg
    rw [partitionLoop]
    simp only [ht, answers, List.map_nil, After, pick]
    refine ⟨_, h, rfl, t, rfl, ?_, .nil _, Relinked.refl _ _⟩
    rw [hp]
    exact .nil _
  | cons a as ih =>
    intro x p s seg nd pL sub st hp pa
    cases seg with
    | cons ha seg =>
    have nda := List.nodup_cons.1 nd
    have st' : Steady h L (as.map h.car) P := fun v hv => st v (by simp only [List.map_cons]; exact .tail _ hv)
    have pa' : p ≠ a ∧ p ∉ as := by simpa using pa
    have sub' : ∀ b ∈ as, b ∈ L := fun b hb => sub b (by simp [hb])
    rw [partitionLoop]
    simp only [isPair_pair, car_pair, cdr_pair, List.map_cons, answers, Option.bind_eq_bind,
      Option.bind_some, Bool.not_true, Bool.false_eq_true, if_false]
    cases hP : P (h.car a) h s with
    | none => simp [After]
    | some r =>
      obtain ⟨b, s1⟩ := r
      simp only [Option.bind_some]
      by_cases hb : b = inside
      · subst hb
        simp only [if_true]
        have ih := ih s1 seg nda.2 (sub a (by simp)) sub' st' rfl nda.1
        cases hA : answers (fun v s => P v h s) (as.map h.car) s1 with
        | none =>
          rw [hA] at ih
          exact ih
        | some r =>
          obtain ⟨bs, s2⟩ := r
          rw [hA] at ih
          obtain ⟨r, h', e, other, er, i1, i2, i3⟩ := ih
          have keep : h'.cdr p = .pair a := by rw [i3.cdr p (by simp [pa'.1, pa'.2]), hp]
          refine ⟨r, h', e, other, er, ?_, ?_, ?_⟩
          · rw [keep]
            simp only [pick, if_true]
            exact .cons (by rw [i3.next]; exact ha) i1
          · simp only [pick]
            rw [if_neg (by cases b <;> simp)]
            exact i2
          · exact i3.mono fun c hc => List.mem_cons_of_mem _ hc
      · rw [if_neg hb]
        have hb' : b = !inside := by cases b <;> cases inside <;> simp_all
        have sc := scan_spec P ht as (!inside) s1 seg nda.2 (Relinked.refl h L) (sub a (by simp)) pL sub' st' rfl
          (Ne.symm pa'.1) nda.1 pa'.2
        cases hA : answers (fun v s => P v h s) (as.map h.car) s1 with
        | none =>
          rw [hA] at sc
          simp only [After, Option.map_eq_none_iff] at sc
          simp [After, sc]
        | some r =>
          obtain ⟨bs, s2⟩ := r
          rw [hA] at sc
          obtain ⟨_, h', e, i1, i2, i3⟩ := sc
          simp only [Option.map_eq_some_iff, Prod.exists, Prod.mk.injEq] at e
          obtain ⟨h'', s'', e, -, rfl, rfl⟩ := e
          refine ⟨_, h'', by rw [e]; rfl, .pair a, rfl, ?_, ?_, ?_⟩
          · simp only [pick]
            rw [if_neg hb]
            simpa using i2
          · simp only [pick]
            rw [if_pos hb']
            exact .cons (by rw [i3.next]; exact ha) i1
          · refine i3.mono fun c hc => ?_
            simp only [List.mem_cons] at hc ⊢
            exact hc.elim (fun h => Or.inr (Or.inl h)) fun h => h.elim Or.inl fun h => Or.inr (Or.inr h)

theorem partitionBang_spec (P : Pred S) {h : Heap} {x : Obj} {as : List Nat} (seg : Seg h x as .null)
    (st : Steady h as (as.map h.car) P) (s : S) :
    After (answers (fun v s => P v h s) (as.map h.car) s) (partitionBang P x h s) fun bs r h' =>
      Seg h' r.1 (pick true as bs) .null ∧ Seg h' r.2 (pick false as bs) .null ∧ Relinked h h' as := by
  have nd := seg.nodup rfl
  rw [partitionBang, nullList_seg seg]
  cases seg with
  | nil =>
    simp only [answers, After, List.map_nil, pick, Option.bind_eq_bind, Option.bind_some, isNull_null, if_true]
    exact ⟨_, h, rfl, .nil _, .nil _, Relinked.refl _ _⟩
  | @cons a as _ ha seg =>
    have nda := List.nodup_cons.1 nd
    simp only [isNull_pair, car_pair, cdr_pair, List.map_cons, answers, Option.bind_eq_bind,
      Option.bind_some, Bool.false_eq_true, if_false]
    cases hP : P (h.car a) h s with
    | none => simp [After]
    | some r =>
      obtain ⟨b, s1⟩ := r
      simp only [Option.bind_some]
      have sp := partitionLoop_spec P (L := a :: as) (t := .null) rfl b (.pair a) as s1 seg nda.2 (by simp)
        (fun c hc => List.mem_cons_of_mem _ hc)
        (fun v hv => st v (by simp only [List.map_cons]; exact .tail _ hv)) rfl nda.1
      cases hA : answers (fun v s => P v h s) (as.map h.car) s1 with
      | none =>
        rw [hA] at sp
        exact sp
      | some r =>
        obtain ⟨bs, s2⟩ := r
        rw [hA] at sp
        obtain ⟨r, h', e, other, er, i1, i2, i3⟩ := sp
        have sa : Seg h' (.pair a) (a :: pick b as bs) .null := .cons (by rw [i3.next]; exact ha) i1
        refine ⟨r, h', e, ?_, ?_, i3⟩
        · cases b <;> simp only [er, pick, if_true, Bool.not_true, Bool.not_false] at i2 sa ⊢ <;> simp_all
        · cases b <;> simp only [er, pick, if_true, Bool.not_true, Bool.not_false] at i2 sa ⊢ <;> simp_all

/-! ### take-while!, span!, break! -/

theorem takeWhileLoop_spec (P : Pred S) {h : Heap} (as : List Nat) :
    ∀ {x : Obj} {p : Nat} (s : S), Seg h x as .null → as.Nodup → h.cdr p = x → p ∉ as →
      After (leading (fun v s => P v h s) (as.map h.car) s)
        ((takeWhileLoop P (.pair p) x h s).map fun (h, s) => ((), h, s)) fun n _ h' =>
        Seg h' (h'.cdr p) (as.take n) .null ∧ Relinked h h' (p :: as) := by
  induction as with
  | nil =>
    intro x p s seg _ hp _
    cases seg
    rw [takeWhileLoop]
    refine ⟨(), h, by simp, ?_, Relinked.refl _ _⟩
    rw [hp]
    exact .nil _
  | cons a as ih =>
    intro x p s seg nd hp pa
    cases seg with
    | cons ha seg =>
    have nda := List.nodup_cons.1 nd
    have pa' : p ≠ a ∧ p ∉ as := by simpa using pa
    rw [takeWhileLoop]
    simp only [isPair_pair, if_true, car_pair, cdr_pair, List.map_cons, leading, Option.bind_eq_bind,
      Option.bind_some, setCdrOf_pair]
    cases hP : P (h.car a) h s with
    | none => simp [After]
    | some r =>
      obtain ⟨b, s1⟩ := r
      simp only [Option.bind_some]
      cases b with
      | false =>
        simp only [Bool.false_eq_true, if_false, After, Option.map_some]
        refine ⟨(), setCdr h p .null, rfl, ?_, Relinked.setCdr _ (by simp)⟩
        have : (setCdr h p .null).cdr p = .null := by simp [setCdr]
        rw [this]
        exact .nil _
      | true =>
        simp only [if_true]
        have ih := ih s1 seg nda.2 rfl nda.1
        cases hA : leading (fun v s => P v h s) (as.map h.car) s1 with
        | none =>
          rw [hA] at ih
          exact ih
        | some r =>
          obtain ⟨n, s2⟩ := r
          rw [hA] at ih
          obtain ⟨_, h', e, i1, i2⟩ := ih
          refine ⟨(), h', e, ?_, i2.mono fun c hc => List.mem_cons_of_mem _ hc⟩
          rw [i2.cdr p (by simp [pa'.1, pa'.2]), hp]
          exact .cons (by rw [i2.next]; exact ha) i1

theorem takeWhileBang_spec (P : Pred S) {h : Heap} {x : Obj} {as : List Nat} (seg : Seg h x as .null) (s : S) :
    After (leading (fun v s => P v h s) (as.map h.car) s) (takeWhileBang P x h s) fun n r h' =>
      Seg h' r (as.take n) .null ∧ Relinked h h' as := by
  have nd := seg.nodup rfl
  rw [takeWhileBang, nullList_seg seg]
  cases seg with
  | nil => exact ⟨.null, h, rfl, .nil _, Relinked.refl _ _⟩
  | @cons a as _ ha seg =>
    have nda := List.nodup_cons.1 nd
    simp only [isNull_pair, car_pair, cdr_pair, List.map_cons, leading, Option.bind_eq_bind,
      Option.bind_some, Bool.false_eq_true, if_false]
    cases hP : P (h.car a) h s with
    | none => simp [After]
    | some r =>
      obtain ⟨b, s1⟩ := r
      simp only [Option.bind_some]
      cases b with
      | false => exact ⟨.null, h, rfl, .nil _, Relinked.refl _ _⟩
      | true =>
        simp only [if_true, Bool.not_true, Bool.false_eq_true, if_false]
        have sp := takeWhileLoop_spec P as s1 seg nda.2 rfl nda.1
        cases hA : leading (fun v s => P v h s) (as.map h.car) s1 with
        | none =>
          rw [hA] at sp
          simp only [After, Option.map_eq_none_iff] at sp
          simp [After, sp]
        | some r =>
          obtain ⟨n, s2⟩ := r
          rw [hA] at sp
          obtain ⟨_, h', e, i1, i2⟩ := sp
          simp only [Option.map_eq_some_iff, Prod.exists, Prod.mk.injEq] at e
          obtain ⟨h'', s'', e, -, rfl, rfl⟩ := e
          exact ⟨.pair a, h'', by rw [e]; rfl, .cons (by rw [i2.next]; exact ha) i1, i2⟩

theorem spanLoop_spec (P : Pred S) {h : Heap} (as : List Nat) :
    ∀ {x : Obj} {p : Nat} (s : S), Seg h x as .null → as.Nodup → h.cdr p = x → p ∉ as →
      After (leading (fun v s => P v h s) (as.map h.car) s) (spanLoop P (.pair p) x h s) fun n r h' =>
        Seg h' (h'.cdr p) (as.take n) .null ∧ Seg h' r (as.drop n) .null ∧ Relinked h h' (p :: as) := by
  induction as with
  | nil =>
    intro x p s seg _ hp _
    cases seg
    rw [spanLoop, nullList_seg (.nil _)]
    refine ⟨.null, h, rfl, ?_, .nil _, Relinked.refl _ _⟩
    rw [hp]
    exact .nil _
  | cons a as ih =>
    intro x p s seg nd hp pa
    rw [spanLoop, nullList_seg seg]
    cases seg with
    | cons ha seg =>
    have nda := List.nodup_cons.1 nd
    have pa' : p ≠ a ∧ p ∉ as := by simpa using pa
    simp only [isNull_pair, if_true, car_pair, cdr_pair, List.map_cons, leading, Option.bind_eq_bind,
      Option.bind_some, setCdrOf_pair, Bool.false_eq_true, if_false]
    cases hP : P (h.car a) h s with
    | none => simp [After]
    | some r =>
      obtain ⟨b, s1⟩ := r
      simp only [Option.bind_some]
      cases b with
      | false =>
        simp only [Bool.false_eq_true, if_false, After]
        refine ⟨.pair a, setCdr h p .null, rfl, ?_, ?_, Relinked.setCdr _ (by simp)⟩
        · have : (setCdr h p .null).cdr p = .null := by simp [setCdr]
          rw [this]
          exact .nil _
        · exact (Seg.cons ha seg).setCdr pa
      | true =>
        simp only [if_true]
        have ih := ih s1 seg nda.2 rfl nda.1
        cases hA : leading (fun v s => P v h s) (as.map h.car) s1 with
        | none =>
          rw [hA] at ih
          exact ih
        | some r =>
          obtain ⟨n, s2⟩ := r
          rw [hA] at ih
          obtain ⟨r, h', e, i1, i2, i3⟩ := ih
          refine ⟨r, h', e, ?_, i2, i3.mono fun c hc => List.mem_cons_of_mem _ hc⟩
          rw [i3.cdr p (by simp [pa'.1, pa'.2]), hp]
          exact .cons (by rw [i3.next]; exact ha) i1

theorem spanBang_spec (P : Pred S) {h : Heap} {x : Obj} {as : List Nat} (seg : Seg h x as .null) (s : S) :
    After (leading (fun v s => P v h s) (as.map h.car) s) (spanBang P x h s) fun n r h' =>
      Seg h' r.1 (as.take n) .null ∧ Seg h' r.2 (as.drop n) .null ∧ Relinked h h' as := by
  have nd := seg.nodup rfl
  rw [spanBang, nullList_seg seg]
  cases seg with
  | nil => exact ⟨_, h, rfl, .nil _, .nil _, Relinked.refl _ _⟩
  | @cons a as _ ha seg =>
    have nda := List.nodup_cons.1 nd
    simp only [isNull_pair, car_pair, cdr_pair, List.map_cons, leading, Option.bind_eq_bind,
      Option.bind_some, Bool.false_eq_true, if_false]
    cases hP : P (h.car a) h s with
    | none => simp [After]
    | some r =>
      obtain ⟨b, s1⟩ := r
      simp only [Option.bind_some]
      cases b with
      | false => exact ⟨_, h, rfl, .nil _, .cons ha seg, Relinked.refl _ _⟩
      | true =>
        simp only [if_true, Bool.not_true, Bool.false_eq_true, if_false]
        have sp := spanLoop_spec P as s1 seg nda.2 rfl nda.1
        cases hA : leading (fun v s => P v h s) (as.map h.car) s1 with
        | none =>
          rw [hA] at sp
          simp only [After] at sp
          simp [After, sp]
        | some r =>
          obtain ⟨n, s2⟩ := r
          rw [hA] at sp
          obtain ⟨r, h', e, i1, i2, i3⟩ := sp
          exact ⟨_, h', by rw [e]; rfl, .cons (by rw [i3.next]; exact ha) i1, i2, i3⟩

/-! ### split-at! -/

theorem splitAtBang_spec {h : Heap} {x t : Obj} {as bs : List Nat} (ht : isPair t = false)
    (seg : Seg h x (as ++ bs) t) :
    ∃ r h', splitAtBang h x as.length = some (r, h') ∧ Seg h' r.1 as .null ∧ Seg h' r.2 bs t ∧
      Relinked h h' as := by
  have nd := seg.nodup ht
  obtain ⟨y, s1, s2⟩ := seg.split
  rcases List.eq_nil_or_concat as with e | ⟨cs, c, e⟩
  · subst e
    cases s1
    exact ⟨(.null, x), h, rfl, .nil _, s2, Relinked.refl _ _⟩
  · rw [List.concat_eq_append] at e
    subst e
    obtain ⟨z, s3, s4⟩ := s1.split
    have nda := List.nodup_append.1 nd
    have ncs : c ∉ cs := fun hm => (List.nodup_append.1 nda.1).2.2 c hm c (by simp) rfl
    have nbs : c ∉ bs := fun hm => nda.2.2 c (by simp) c hm rfl
    cases s4 with
    | cons hc s4 =>
      generalize hd : h.cdr c = d at s4
      cases s4
      refine ⟨(x, y), setCdr h c .null, ?_, ?_, s2.setCdr nbs, Relinked.setCdr _ (by simp)⟩
      · have dl : drop h x cs.length = some (.pair c) := drop_spec s3
        simp [splitAtBang, dl, hd]
      · refine (s3.setCdr ncs).append (.cons hc ?_)
        have : (setCdr h c .null).cdr c = .null := by simp [setCdr]
        rw [this]
        exact .nil _

end Meevax.Linear
