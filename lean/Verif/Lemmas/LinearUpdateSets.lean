import Verif.Lemmas.LinearUpdate

/-! Lemmas for C90: `map!`, and lists as sets. -/

namespace Meevax.Linear

open Meevax.Lists Spec

variable {S : Type}

/-! ### map! -/

theorem Spec.OnlyCars.refl (h : Heap) (as : List Nat) : OnlyCars h h as := ⟨rfl, fun _ _ => rfl, fun _ => rfl⟩

theorem Spec.OnlyCars.mono {h h' : Heap} {as bs : List Nat} (r : OnlyCars h h' as) (sub : ∀ a ∈ as, a ∈ bs) :
    OnlyCars h h' bs := ⟨r.next, fun a ha => r.car a fun hm => ha (sub a hm), r.cdr⟩

theorem Spec.OnlyCars.trans {h h' h'' : Heap} {as : List Nat} (r : OnlyCars h h' as) (q : OnlyCars h' h'' as) :
    OnlyCars h h'' as :=
  ⟨q.next.trans r.next, fun a ha => (q.car a ha).trans (r.car a ha), fun a => (q.cdr a).trans (r.cdr a)⟩

theorem Spec.OnlyCars.setCar {h : Heap} {as : List Nat} {a : Nat} (y : Obj) (ha : a ∈ as) :
    OnlyCars h (setCar h a y) as := by
  refine ⟨rfl, fun b hb => ?_, fun _ => rfl⟩
  have : b ≠ a := fun e => hb (e ▸ ha)
  simp [Lists.setCar, this]

theorem Spec.OnlyCars.seg {h h' : Heap} {as bs : List Nat} {x t : Obj} (r : OnlyCars h h' as) (s : Seg h x bs t) :
    Seg h' x bs t := s.congr (Nat.le_of_eq r.next.symm) fun a _ => r.cdr a

theorem mapLoop_spec (f : Proc S) {h0 : Heap} {L : List Nat} (as : List Nat) :
    ∀ {h : Heap} {x : Obj} (s : S), Seg h x as .null → as.Nodup → OnlyCars h0 h L → (∀ a ∈ as, a ∈ L) →
      (∀ a ∈ as, h.car a = h0.car a) → SteadyCars h0 L (as.map fun a => [h0.car a]) f →
      After (results (fun vs s => f vs h0 s) (as.map fun a => [h0.car a]) s)
        ((mapLoop f x h s).map fun (h, s) => ((), h, s)) fun rs _ h' => as.map h'.car = rs ∧ OnlyCars h h' as := by
  induction as with
  | nil =>
    intro h x s seg _ _ _ _ _
    rw [mapLoop, nullList_seg seg]
    cases seg
    exact ⟨(), h, rfl, rfl, OnlyCars.refl _ _⟩
  | cons a as ih =>
    intro h x s seg nd oc sub same st
    rw [mapLoop, nullList_seg seg]
    cases seg with
    | cons ha seg =>
    have nda := List.nodup_cons.1 nd
    simp only [isNull_pair, car_pair, cdr_pair, List.map_cons, results, Option.bind_eq_bind, Option.bind_some,
      Bool.false_eq_true, if_false, setCarOf_pair]
    rw [same a (by simp), st [h0.car a] (by simp) h s oc]
    cases hP : f [h0.car a] h0 s with
    | none => simp [After]
    | some r =>
      obtain ⟨v, s1⟩ := r
      simp only [Option.bind_some]
      have ih := ih (h := setCar h a v) (x := h.cdr a) s1 seg.setCar nda.2
        (oc.trans (OnlyCars.setCar v (sub a (by simp)))) (fun b hb => sub b (by simp [hb]))
        (fun b hb => by
          have : b ≠ a := fun e => nda.1 (e ▸ hb)
          simp only [setCar, this, if_false]
          exact same b (by simp [hb]))
        (fun vs hv => st vs (by simp only [List.map_cons]; exact .tail _ hv))
      cases hA : results (fun vs s => f vs h0 s) (as.map fun a => [h0.car a]) s1 with
      | none =>
        rw [hA] at ih
        exact ih
      | some r =>
        obtain ⟨rs, s2⟩ := r
        rw [hA] at ih
        obtain ⟨_, h', e, i1, i2⟩ := ih
        refine ⟨(), h', e, ?_, ?_⟩
        · rw [i1, i2.car a nda.1]
          simp [setCar]
        · exact (OnlyCars.setCar v (by simp)).trans (i2.mono fun _ hm => List.mem_cons_of_mem _ hm)

theorem carsCdrsNoTest_spec {h : Heap} {xs : List Obj} {bss : List (List Nat)}
    (fa : List.Forall₂ (fun x bs => (∃ t, Seg h x bs t) ∧ bs ≠ []) xs bss) :
    ∃ tails, carsCdrsNoTest h xs = some ((bss.map (·.map h.car)).map fun ws => ws.headD .null, tails) ∧
      List.Forall₂ (fun x bs => ∃ t, Seg h x bs t) tails (bss.map List.tail) := by
  induction fa with
  | nil => exact ⟨[], rfl, .nil⟩
  | @cons x bs xs bss hx _ ih =>
    obtain ⟨⟨t, seg⟩, ne⟩ := hx
    obtain ⟨tails, e, fa⟩ := ih
    cases seg with
    | nil => exact (ne rfl).elim
    | @cons b bs _ hb seg =>
      exact ⟨h.cdr b :: tails, by simp [carsCdrsNoTest, e], .cons ⟨t, seg⟩ fa⟩

theorem mapLoopMany_spec (f : Proc S) {h0 : Heap} {L : List Nat} (as : List Nat) :
    ∀ {h : Heap} {x : Obj} {xs : List Obj} {bss : List (List Nat)} (s : S), Seg h x as .null → as.Nodup →
      List.Forall₂ (fun x bs => ∃ t, Seg h x bs t) xs bss → (∀ bs ∈ bss, as.length ≤ bs.length ∧ ∀ b ∈ bs, b ∉ L) →
      OnlyCars h0 h L → (∀ a ∈ as, a ∈ L) → (∀ a ∈ as, h.car a = h0.car a) →
      SteadyCars h0 L (rows (as.map h0.car) (bss.map (·.map h0.car))) f →
      After (results (fun vs s => f vs h0 s) (rows (as.map h0.car) (bss.map (·.map h0.car))) s)
        ((mapLoopMany f x xs h s).map fun (h, s) => ((), h, s)) fun rs _ h' =>
          as.map h'.car = rs ∧ OnlyCars h h' as := by
  induction as with
  | nil =>
    intro h x xs bss s seg _ _ _ _ _ _ _
    rw [mapLoopMany, nullList_seg seg]
    cases seg
    exact ⟨(), h, rfl, rfl, OnlyCars.refl _ _⟩
  | cons a as ih =>
    intro h x xs bss s seg nd fa other oc sub same st
    rw [mapLoopMany, nullList_seg seg]
    cases seg with
    | cons ha seg =>
    have nda := List.nodup_cons.1 nd
    obtain ⟨tails, ec, fa'⟩ := carsCdrsNoTest_spec (h := h) (xs := xs) (bss := bss) (by
      clear st
      induction fa with
      | nil => exact .nil
      | @cons x bs xs bss hx _ ih =>
        refine .cons ⟨hx, ?_⟩ (ih fun bs hb => other bs (by simp [hb]))
        intro e
        have := (other bs (by simp)).1
        rw [e] at this
        simp at this)
    have cars : bss.map (·.map h.car) = bss.map (·.map h0.car) := by
      refine List.map_congr_left fun bs hb => List.map_congr_left fun b hb' => ?_
      exact oc.car b ((other bs hb).2 b hb')
    have tl : (bss.map (·.map h0.car)).map List.tail = (bss.map List.tail).map (·.map h0.car) := by
      simp [List.map_tail]
    simp only [isNull_pair, car_pair, cdr_pair, List.map_cons, rows, results, Option.bind_eq_bind, Option.bind_some,
      Bool.false_eq_true, if_false, setCarOf_pair, ec] at st ⊢
    rw [cars, same a (by simp), st _ (by simp) h s oc]
    cases hP : f (h0.car a :: (bss.map (·.map h0.car)).map fun ws => ws.headD .null) h0 s with
    | none => simp [After]
    | some r =>
      obtain ⟨v, s1⟩ := r
      simp only [Option.bind_some]
      have ocs : OnlyCars h (setCar h a v) [a] := OnlyCars.setCar v (by simp)
      have fa'' : List.Forall₂ (fun x bs => ∃ t, Seg (setCar h a v) x bs t) tails (bss.map List.tail) :=
        fa'.imp fun x bs ⟨t, sg⟩ => ⟨t, sg.setCar⟩
      have ih := ih (h := setCar h a v) (x := h.cdr a) s1 seg.setCar nda.2 fa''
        (fun bs hb => by
          obtain ⟨cs, hc, rfl⟩ := List.mem_map.1 hb
          have := other cs hc
          refine ⟨by rw [List.length_tail]; simp at this; omega, fun b hb => this.2 b (List.mem_of_mem_tail hb)⟩)
        (oc.trans (OnlyCars.setCar v (sub a (by simp)))) (fun b hb => sub b (by simp [hb]))
        (fun b hb => by
          have : b ≠ a := fun e => nda.1 (e ▸ hb)
          simp only [setCar, this, if_false]
          exact same b (by simp [hb]))
        (fun vs hv => st vs (by rw [tl]; exact .tail _ hv))
      rw [tl]
      have cdra : (setCar h a v).cdr a = h.cdr a := rfl
      rw [cdra]
      cases hA : results (fun vs s => f vs h0 s) (rows (as.map h0.car) ((bss.map List.tail).map (·.map h0.car))) s1 with
      | none =>
        rw [hA] at ih
        exact ih
      | some r =>
        obtain ⟨rs, s2⟩ := r
        rw [hA] at ih
        obtain ⟨_, h', e, i1, i2⟩ := ih
        refine ⟨(), h', e, ?_, ?_⟩
        · rw [i1, i2.car a nda.1]
          simp [setCar]
        · exact (OnlyCars.setCar v (by simp)).trans (i2.mono fun _ hm => List.mem_cons_of_mem _ hm)

/-! ### Membership -/

theorem memberOf_spec (E : Pred2 S) (x : Obj) {h : Heap} {y t : Obj} {bs : List Nat} (ht : isPair t = false)
    (seg : Seg h y bs t) (s : S) :
    memberOf E x y h s = among (fun a b s => E a b h s) x (bs.map h.car) s := by
  induction seg generalizing s with
  | nil => rw [memberOf]; simp [ht, among]
  | @cons b bs t hb seg ih =>
    rw [memberOf]
    simp only [isPair_pair, if_true, car_pair, cdr_pair, List.map_cons, among, Option.bind_eq_bind, Option.bind_some,
      ih ht]

theorem anyLoop_spec (P : Pred S) {h : Heap} (bs : List Nat) :
    ∀ {head y : Obj} (s : S), Seg h y bs .null →
      anyLoop P head y h s = among (fun _ b s => P b h s) .null (head :: bs.map h.car) s := by
  induction bs with
  | nil =>
    intro head y s seg
    rw [anyLoop, nullList_seg seg]
    cases seg
    simp only [List.map_nil, among, isNull_null, if_true, Option.bind_eq_bind, Option.bind_some]
    cases P head h s with
    | none => rfl
    | some r => obtain ⟨b, s⟩ := r; cases b <;> rfl
  | cons b bs ih =>
    intro head y s seg
    rw [anyLoop, nullList_seg seg]
    cases seg with
    | cons hb seg =>
    simp only [isNull_pair, Bool.false_eq_true, if_false, Option.bind_eq_bind, Option.bind_some, car_pair, cdr_pair]
    rw [among]
    simp only [Option.bind_eq_bind]
    congr 1
    funext r
    obtain ⟨c, s⟩ := r
    simp only [ih s seg, List.map_cons]

theorem anyOf_spec (P : Pred S) {h : Heap} {y : Obj} {bs : List Nat} (seg : Seg h y bs .null) (s : S) :
    anyOf P y h s = among (fun _ b s => P b h s) .null (bs.map h.car) s := by
  rw [anyOf, nullList_seg seg]
  cases seg with
  | nil => rfl
  | cons hb seg => simp [anyLoop_spec P _ s seg]

theorem among_fun (e : Obj → Obj → S → Option (Bool × S)) (x z : Obj) (ws : List Obj) (s : S) :
    among (fun _ b s => e x b s) z ws s = among e x ws s := by
  induction ws generalizing s with
  | nil => rfl
  | cons w ws ih => simp only [among, ih]

theorem among_congr {e e' : Obj → Obj → S → Option (Bool × S)} {x : Obj} {ws : List Obj}
    (eq : ∀ w ∈ ws, ∀ s, e x w s = e' x w s) (s : S) : among e x ws s = among e' x ws s := by
  induction ws generalizing s with
  | nil => rfl
  | cons w ws ih =>
    simp only [among, eq w (by simp), ih fun w hw => eq w (List.mem_cons_of_mem _ hw)]

theorem everyArg_spec (E : Pred2 S) (x : Obj) {h : Heap} {args : List (Obj × List Nat)}
    (segs : ∀ p ∈ args, Seg h p.1 p.2 .null) (s : S) :
    everyArg (fun ys s => memberOf E x ys h s) (args.map (·.1)) s =
      amongAll (fun a b s => E a b h s) x (args.map (·.2.map h.car)) s := by
  induction args generalizing s with
  | nil => rfl
  | cons p args ih =>
    have ih := ih fun q hq => segs q (List.mem_cons_of_mem _ hq)
    simp only [List.map_cons, everyArg, amongAll, memberOf_spec E x rfl (segs p (by simp)), ih]

theorem anyArg_spec (E : Pred2 S) (x : Obj) {h : Heap} {args : List (Obj × List Nat)}
    (segs : ∀ p ∈ args, Seg h p.1 p.2 .null) (s : S) :
    anyArg (fun ys s => memberOf E x ys h s) (args.map (·.1)) s =
      amongAny (fun a b s => E a b h s) x (args.map (·.2.map h.car)) s := by
  induction args generalizing s with
  | nil => rfl
  | cons p args ih =>
    have ih := ih fun q hq => segs q (List.mem_cons_of_mem _ hq)
    simp only [List.map_cons, anyArg, amongAny, memberOf_spec E x rfl (segs p (by simp)), ih]

/-- `every` of `not member` over the lists that are not empty: no list has the element. -/
theorem everyNot_spec (E : Pred2 S) (x : Obj) {h : Heap} {args : List (Obj × List Nat)}
    (segs : ∀ p ∈ args, Seg h p.1 p.2 .null) (s : S) :
    everyArg (fun ys s => (memberOf E x ys h s).map fun (b, s) => (!b, s)) ((args.map (·.1)).filter isPair) s =
      (amongAny (fun a b s => E a b h s) x (args.map (·.2.map h.car)) s).map fun (b, s) => (!b, s) := by
  induction args generalizing s with
  | nil => rfl
  | cons p args ih =>
    have ih := ih fun q hq => segs q (List.mem_cons_of_mem _ hq)
    obtain ⟨y, bs⟩ := p
    have seg := segs (y, bs) (by simp)
    simp only [List.map_cons, amongAny]
    cases seg with
    | nil => simp [among, ih]
    | @cons b bs _ hb seg =>
      simp only [List.filter_cons, isPair_pair, if_true, everyArg, memberOf_spec E x rfl (Seg.cons hb seg),
        Option.bind_eq_bind]
      cases among (fun a b s => E a b h s) x ((b :: bs).map h.car) s with
      | none => rfl
      | some r =>
        obtain ⟨c, s⟩ := r
        cases c <;> simp [ih]

/-! ### delete-duplicates! -/

theorem deleteDuplicatesBang_spec (E : Pred2 S) {h0 : Heap} {L : List Nat} (n : Nat) :
    ∀ {h : Heap} {x : Obj} {as : List Nat} (s : S), as.length = n → Seg h x as .null → OnlyCdrs h0 h L →
      (∀ a ∈ as, a ∈ L) → (∀ a ∈ as, a < h0.next) → Steady2 h0 L (as.map h0.car) E →
      After (unique (fun a b s => E a b h0 s) (as.map h0.car) s) (deleteDuplicatesBang E x h s) fun rs r h' =>
        ListIs h' r rs ∧ OnlyCdrs h h' as := by
  induction n using Nat.strongRecOn with
  | ind n ih =>
    intro h x as s len seg oc sub lt0 st
    have nd := seg.nodup rfl
    rw [deleteDuplicatesBang, nullList_seg seg]
    cases seg with
    | nil =>
      simp only [List.map_nil, unique]
      exact ⟨.null, h, rfl, ⟨[], .nil _, rfl⟩, OnlyCdrs.refl _ _⟩
    | @cons a as _ ha seg =>
      have nda := List.nodup_cons.1 nd
      have cars : ∀ b ∈ a :: as, h.car b = h0.car b := fun b hb => oc.car b (lt0 b hb)
      have mc : as.map h.car = as.map h0.car := List.map_congr_left fun b hb => cars b (by simp [hb])
      simp only [isNull_pair, Bool.false_eq_true, if_false, Option.bind_eq_bind, Option.bind_some, car_pair, cdr_pair,
        List.map_cons, unique, deleteBang]
      rw [cars a (by simp)]
      have fs := filterBang_spec (complement (E (h0.car a))) rfl seg s
      rw [answers_complement, mc, answers_congr (q' := fun v s => E (h0.car a) v h0 s) (fun v hv s =>
        st _ (by simp) v (by simp only [List.map_cons]; exact .tail _ hv) h s oc)] at fs
      cases hA : answers (fun v s => E (h0.car a) v h0 s) (as.map h0.car) s with
      | none =>
        rw [hA] at fs
        simp only [After, Option.map_none] at fs
        simp [After, fs]
      | some r =>
        obtain ⟨bs, s1⟩ := r
        rw [hA] at fs
        obtain ⟨r, h1, e1, sg1, rel⟩ := fs
        rw [pick_not, Bool.not_true] at sg1
        simp only [e1, Option.bind_some]
        have oc1 : OnlyCdrs h0 h1 L := oc.trans (rel.onlyCdrs.mono fun b hb => sub b (by simp [hb]))
        have ih := ih (pick false as bs).length (by
            have := pick_length false as bs
            simp at len
            omega) s1 rfl sg1 oc1 (fun b hb => sub b (by simp [pick_mem hb]))
          (fun b hb => lt0 b (by simp [pick_mem hb])) (by
            intro v hv w hw
            have mem : ∀ u, u ∈ (pick false as bs).map h0.car → u ∈ (a :: as).map h0.car := by
              intro u hu
              obtain ⟨b, hb, rfl⟩ := List.mem_map.1 hu
              exact List.mem_map.2 ⟨b, by simp [pick_mem hb], rfl⟩
            exact st v (mem v hv) w (mem w hw))
        rw [pick_map] at ih
        cases hU : unique (fun a b s => E a b h0 s) (pick false (as.map h0.car) bs) s1 with
        | none =>
          rw [hU] at ih
          simp only [After] at ih
          simp [After, ih]
        | some r =>
          obtain ⟨rs, s2⟩ := r
          rw [hU] at ih
          obtain ⟨ys, h2, e2, li, oc2⟩ := ih
          simp only [e2, Option.bind_some, After]
          have oc2' : OnlyCdrs h h2 as := rel.onlyCdrs.trans (oc2.mono fun b hb => pick_mem hb)
          by_cases eq : h.cdr a = ys
          · rw [if_pos eq]
            refine ⟨.pair a, h2, rfl, ?_, oc2'.mono fun b hb => List.mem_cons_of_mem _ hb⟩
            obtain ⟨cs, sc, mcs⟩ := li
            refine ⟨a :: cs, .cons (Nat.lt_of_lt_of_le ha oc2'.next) ?_, ?_⟩
            · rw [oc2'.cdr a ha nda.1, eq]
              exact sc
            · rw [List.map_cons, mcs, oc2'.car a ha, cars a (by simp)]
          · rw [if_neg eq]
            have ex := Extends.cons h2 (h0.car a) ys
            refine ⟨_, _, rfl, ?_, (oc2'.mono fun b hb => List.mem_cons_of_mem _ hb).then_extends ex⟩
            obtain ⟨cs, sc, mcs⟩ := li
            refine ⟨h2.next :: cs, .cons (by simp [cons]) ?_, ?_⟩
            · have : (cons h2 (h0.car a) ys).2.cdr h2.next = ys := by simp [cons]
              rw [this]
              exact sc.extend ex
            · rw [List.map_cons, map_car_extend ex sc.lt, mcs]
              simp [cons]

/-! ### lset-union! -/

/-- The result of a set operation: a list made of some of the pairs `as`, whose elements are those of before. -/
def MadeOf (h0 h h' : Heap) (as : List Nat) (r : Obj) (rs : List Obj) : Prop :=
  ∃ cs, Seg h' r cs .null ∧ cs.map h0.car = rs ∧ (∀ c ∈ cs, c ∈ as) ∧ Relinked h h' as

theorem unionFold_spec (E : Pred2 S) {h0 : Heap} {L : List Nat} (as : List Nat) :
    ∀ {h : Heap} {x y : Obj} {bs : List Nat} (s : S), Seg h x as .null → Seg h y bs .null → as.Nodup →
      (∀ a ∈ as, a ∉ bs) → Relinked h0 h L → (∀ a ∈ as, a ∈ L) → Steady2 h0 L ((as ++ bs).map h0.car) E →
      After (adjoin (fun a b s => E a b h0 s) (as.map h0.car) (bs.map h0.car) s) (pairFold (unionStep E) x y h s)
        fun rs r h' => MadeOf h0 h h' (as ++ bs) r rs := by
  induction as with
  | nil =>
    intro h x y bs s sx sy _ _ _ _ _
    rw [pairFold, nullList_seg sx]
    cases sx
    exact ⟨y, h, rfl, bs, sy, rfl, fun c hc => hc, Relinked.refl _ _⟩
  | cons a as ih =>
    intro h x y bs s sx sy nd dis rel sub st
    rw [pairFold, nullList_seg sx]
    cases sx with
    | cons ha sx =>
    have nda := List.nodup_cons.1 nd
    have mcb : bs.map h.car = bs.map h0.car := List.map_congr_left fun b _ => rel.car b
    simp only [isNull_pair, Bool.false_eq_true, if_false, Option.bind_eq_bind, Option.bind_some, car_pair, cdr_pair,
      List.map_cons, adjoin, unionStep, setCdrOf_pair]
    rw [rel.car a, anyOf_spec _ sy, mcb, among_fun (fun u v s => E u v h s),
      among_congr (e := fun u v s => E u v h s) (e' := fun u v s => E u v h0 s) (fun w hw s =>
        st (h0.car a) (by simp) w (by simp only [List.map_append, List.mem_append]; exact Or.inr hw) h s rel.onlyCdrs)]
    cases hM : among (fun u v s => E u v h0 s) (h0.car a) (bs.map h0.car) s with
    | none => simp [After]
    | some r =>
      obtain ⟨b, s1⟩ := r
      simp only [Option.bind_some]
      cases b with
      | true =>
        simp only [if_true, Option.bind_some]
        have ih := ih s1 sx sy nda.2 (fun c hc => dis c (by simp [hc])) rel (fun c hc => sub c (by simp [hc]))
          (fun v hv w hw => st v (by simp only [List.cons_append, List.map_cons]; exact .tail _ hv) w
            (by simp only [List.cons_append, List.map_cons]; exact .tail _ hw))
        cases hA : adjoin (fun a b s => E a b h0 s) (as.map h0.car) (bs.map h0.car) s1 with
        | none =>
          rw [hA] at ih
          exact ih
        | some r =>
          obtain ⟨rs, s2⟩ := r
          rw [hA] at ih
          obtain ⟨r, h', e, cs, sc, mcs, subc, relc⟩ := ih
          exact ⟨r, h', e, cs, sc, mcs, fun c hc => List.mem_cons_of_mem _ (subc c hc),
            relc.mono fun c hc => List.mem_cons_of_mem _ hc⟩
      | false =>
        simp only [Bool.false_eq_true, if_false, Option.bind_some]
        have relq : Relinked h (setCdr h a y) [a] := Relinked.setCdr y (by simp)
        have sy' : Seg (setCdr h a y) (.pair a) (a :: bs) .null := by
          refine .cons ha ?_
          have : (setCdr h a y).cdr a = y := by simp [setCdr]
          rw [this]
          exact sy.setCdr (dis a (by simp))
        have perm : ∀ c, c ∈ as ++ a :: bs → c ∈ a :: as ++ bs := by
          intro c hc
          simp only [List.mem_append, List.mem_cons, List.cons_append] at hc ⊢
          tauto
        have permv : ∀ v, v ∈ (as ++ a :: bs).map h0.car → v ∈ (a :: as ++ bs).map h0.car := by
          intro v hv
          obtain ⟨c, hc, rfl⟩ := List.mem_map.1 hv
          exact List.mem_map.2 ⟨c, perm c hc, rfl⟩
        have ih := ih s1 (sx.setCdr (y := y) nda.1) sy' nda.2 (fun c hc hm => by
            rcases List.mem_cons.1 hm with e | hm
            · exact nda.1 (e ▸ hc)
            · exact dis c (by simp [hc]) hm)
          (rel.trans (relq.mono fun c hc => sub c (by simp at hc; simp [hc])))
          (fun c hc => sub c (by simp [hc]))
          (fun v hv w hw => st v (permv v hv) w (permv w hw))
        rw [List.map_cons] at ih
        cases hA : adjoin (fun a b s => E a b h0 s) (as.map h0.car) (h0.car a :: bs.map h0.car) s1 with
        | none =>
          rw [hA] at ih
          exact ih
        | some r =>
          obtain ⟨rs, s2⟩ := r
          rw [hA] at ih
          obtain ⟨r, h', e, cs, sc, mcs, subc, relc⟩ := ih
          exact ⟨r, h', e, cs, sc, mcs, fun c hc => perm c (subc c hc),
            (relq.mono fun c hc => by simp at hc; simp [hc]).trans (relc.mono perm)⟩

theorem union2_spec (E : Pred2 S) {h0 : Heap} {L : List Nat} {h : Heap} {x y : Obj} {as bs : List Nat} (s : S)
    (sx : Seg h x as .null) (sy : Seg h y bs .null) (dis : ∀ a ∈ as, a ∉ bs) (rel : Relinked h0 h L)
    (sub : ∀ a ∈ as, a ∈ L) (st : Steady2 h0 L ((as ++ bs).map h0.car) E) :
    After (union (fun a b s => E a b h0 s) (as.map h0.car) (bs.map h0.car) s) (union2 E x y h s)
      fun rs r h' => MadeOf h0 h h' (as ++ bs) r rs := by
  have uf := unionFold_spec E as s sx sy (sx.nodup rfl) dis rel sub st
  cases sx with
  | nil =>
    have : union (fun a b s => E a b h0 s) ([].map h0.car) (bs.map h0.car) s = some (bs.map h0.car, s) := by
      cases bs <;> simp [union, adjoin]
    rw [this]
    exact ⟨y, h, by simp [union2], bs, sy, rfl, fun c hc => hc, Relinked.refl _ _⟩
  | @cons a as _ ha sx =>
    cases sy with
    | nil =>
      exact ⟨.pair a, h, by simp [union2], a :: as, .cons ha sx, rfl, fun c hc => by simpa using hc, Relinked.refl _ _⟩
    | @cons b bs _ hb sy =>
      have ne : Obj.pair a ≠ .pair b := fun e => dis a (by simp) (by simp at e; simp [e])
      rw [union2, if_neg (by simp), if_neg (by simp), if_neg ne]
      simpa [union] using uf

/-! ### Combining lists -/

/-- The lists of the arguments, with the pairs they are made of. -/
theorem reduceGo_spec {f : Obj → Obj → Heap → S → Option (Obj × Heap × S)}
    {g : List Obj → List Obj → S → Option (List Obj × S)} {h0 : Heap} {L : List Nat}
    (step : ∀ {h x y as bs} (s : S), Seg h x as .null → Seg h y bs .null → (∀ a ∈ as, a ∉ bs) → Relinked h0 h L →
      (∀ a ∈ as ++ bs, a ∈ L) →
      After (g (as.map h0.car) (bs.map h0.car) s) (f x y h s) fun rs r h' => MadeOf h0 h h' (as ++ bs) r rs)
    (args : List (Obj × List Nat)) :
    ∀ {h : Heap} {acc : Obj} {bs : List Nat} (s : S), Seg h acc bs .null → (∀ p ∈ args, Seg h p.1 p.2 .null) →
      (bs ++ (args.map (·.2)).flatten).Nodup → Relinked h0 h L → (∀ a ∈ bs ++ (args.map (·.2)).flatten, a ∈ L) →
      After (combine g (bs.map h0.car) (args.map (·.2.map h0.car)) s)
        (reduceArgs.go f acc (args.map (·.1)) h s) fun rs r h' =>
          MadeOf h0 h h' (bs ++ (args.map (·.2)).flatten) r rs := by
  induction args with
  | nil =>
    intro h acc bs s sb _ _ _ _
    exact ⟨acc, h, rfl, bs, sb, rfl, fun c hc => by simpa using hc, Relinked.refl _ _⟩
  | cons p args ih =>
    intro h acc bs s sb segs nd rel sub
    obtain ⟨x, as⟩ := p
    simp only [List.map_cons, List.flatten_cons] at nd sub ⊢
    have sx : Seg h x as .null := segs (x, as) (by simp)
    have nd1 := List.nodup_append.1 nd
    have nd2 := List.nodup_append.1 nd1.2.1
    have st := step s sx sb (fun a ha hm => nd1.2.2 a hm a (by simp [ha]) rfl) rel (fun a ha => sub a (by
      simp only [List.mem_append] at ha ⊢
      tauto))
    simp only [combine, reduceArgs.go, Option.bind_eq_bind]
    cases hG : g (as.map h0.car) (bs.map h0.car) s with
    | none =>
      rw [hG] at st
      simp only [After] at st
      simp [After, st]
    | some r =>
      obtain ⟨rs, s1⟩ := r
      rw [hG] at st
      obtain ⟨r, h1, e1, cs, sc, mcs, subc, relc⟩ := st
      simp only [e1, Option.bind_some]
      have ndc : cs.Nodup := sc.nodup rfl
      have out : ∀ c ∈ cs, ∀ d ∈ (args.map (·.2)).flatten, c ≠ d := by
        intro c hc d hd e
        have := subc c hc
        rcases List.mem_append.1 this with m | m
        · exact nd2.2.2 c m d hd e
        · exact nd1.2.2 c m d (by simp only [List.mem_append]; exact Or.inr hd) e
      have segs1 : ∀ p ∈ args, Seg h1 p.1 p.2 .null := by
        intro p hp
        refine (segs p (by simp [hp])).congr (Nat.le_of_eq relc.next.symm) fun d hd => relc.cdr d fun hm => ?_
        have hd' : d ∈ (args.map (·.2)).flatten :=
          List.mem_flatten.2 ⟨p.2, List.mem_map.2 ⟨p, hp, rfl⟩, hd⟩
        rcases List.mem_append.1 hm with m | m
        · exact nd2.2.2 d m d hd' rfl
        · exact nd1.2.2 d m d (by simp only [List.mem_append]; exact Or.inr hd') rfl
      have big : ∀ c, c ∈ as ++ bs → c ∈ bs ++ (as ++ (args.map (·.2)).flatten) := by
        intro c hc
        simp only [List.mem_append] at hc ⊢
        tauto
      have big2 : ∀ c, c ∈ cs ++ (args.map (·.2)).flatten → c ∈ bs ++ (as ++ (args.map (·.2)).flatten) := by
        intro c hc
        rcases List.mem_append.1 hc with m | m
        · exact big c (subc c m)
        · simp only [List.mem_append]
          exact Or.inr (Or.inr m)
      have ih := ih s1 sc segs1 (List.nodup_append.2 ⟨ndc, nd2.2.1, out⟩)
        (rel.trans (relc.mono fun c hc => sub c (big c hc))) (fun c hc => sub c (big2 c hc))
      rw [mcs] at ih
      cases hC : combine g rs (args.map (·.2.map h0.car)) s1 with
      | none =>
        rw [hC] at ih
        exact ih
      | some r =>
        obtain ⟨rs2, s2⟩ := r
        rw [hC] at ih
        obtain ⟨r2, h2, e2, ds, sd, mds, subd, reld⟩ := ih
        exact ⟨r2, h2, e2, ds, sd, mds, fun c hc => big2 c (subd c hc), (relc.mono big).trans (reld.mono big2)⟩

/-! ### lset-xor! -/

theorem allNull_spec {h : Heap} {args : List (Obj × List Nat)} (segs : ∀ p ∈ args, Seg h p.1 p.2 .null) :
    allNull h (args.map (·.1)) = some (args.all fun p => p.2.isEmpty) := by
  induction args with
  | nil => rfl
  | cons p args ih =>
    have ih := ih fun q hq => segs q (List.mem_cons_of_mem _ hq)
    have sp := segs p (by simp)
    simp only [List.map_cons, allNull, nullList_seg sp, Option.bind_eq_bind, Option.bind_some, ih, List.all_cons]
    obtain ⟨y, bs⟩ := p
    cases sp <;> simp

theorem anyNull_spec {h : Heap} {args : List (Obj × List Nat)} (segs : ∀ p ∈ args, Seg h p.1 p.2 .null) :
    anyNull h (args.map (·.1)) = some (args.any fun p => p.2.isEmpty) := by
  induction args with
  | nil => rfl
  | cons p args ih =>
    have ih := ih fun q hq => segs q (List.mem_cons_of_mem _ hq)
    have sp := segs p (by simp)
    simp only [List.map_cons, anyNull, nullList_seg sp, Option.bind_eq_bind, Option.bind_some, ih, List.any_cons]
    obtain ⟨y, bs⟩ := p
    cases sp <;> simp

theorem amongAny_empty (e : Obj → Obj → S → Option (Bool × S)) (x : Obj) {wss : List (List Obj)}
    (hw : ∀ ws ∈ wss, ws = []) (s : S) : amongAny e x wss s = some (false, s) := by
  induction wss with
  | nil => rfl
  | cons ws wss ih =>
    rw [hw ws (by simp)]
    simp [amongAny, among, ih fun ws h => hw ws (by simp [h])]

theorem answers_false {q : Test S} {vs : List Obj} (hq : ∀ v s, q v s = some (false, s)) (s : S) :
    answers q vs s = some (vs.map fun _ => false, s) := by
  induction vs with
  | nil => rfl
  | cons v vs ih => simp [answers, hq, ih]

theorem answers_true {q : Test S} {vs : List Obj} (hq : ∀ v s, q v s = some (true, s)) (s : S) :
    answers q vs s = some (vs.map fun _ => true, s) := by
  induction vs with
  | nil => rfl
  | cons v vs ih => simp [answers, hq, ih]

theorem pick_const {α β : Type} (b c : Bool) (xs : List α) (ys : List β) (len : xs.length = ys.length) :
    pick b xs (ys.map fun _ => c) = if c = b then xs else [] := by
  induction xs generalizing ys with
  | nil => cases ys <;> simp [pick]
  | cons x xs ih =>
    cases ys with
    | nil => simp at len
    | cons y ys =>
      have := ih ys (by simpa using len)
      simp only [List.map_cons, pick, this]
      split <;> rfl

theorem pick_all {α : Type} (b : Bool) {xs : List α} {bs : List Bool} (len : bs.length = xs.length)
    (none : pick (!b) xs bs = []) : pick b xs bs = xs := by
  induction xs generalizing bs with
  | nil => simp [pick]
  | cons x xs ih =>
    cases bs with
    | nil => simp at len
    | cons c cs =>
      simp only [pick] at none ⊢
      by_cases hc : c = b
      · rw [if_pos hc]
        rw [if_neg (by subst hc; cases c <;> simp)] at none
        rw [ih (by simpa using len) none]
      · rw [if_pos (by cases c <;> cases b <;> simp_all)] at none
        simp at none

/-- The object that heads a list is determined by its pairs. -/
theorem seg_object {h h' : Heap} {x y : Obj} {as : List Nat} (s : Seg h x as .null) (s' : Seg h' y as .null) :
    x = y := by
  cases s <;> cases s' <;> rfl

theorem lsetDifferenceBang_spec (E : Pred2 S) {h : Heap} {x : Obj} {as : List Nat} {args : List (Obj × List Nat)}
    (seg : Seg h x as .null) (segs : ∀ p ∈ args, Seg h p.1 p.2 .null) (s : S) :
    (isPair x = true ∧ x ∈ args.map (·.1) → lsetDifferenceBang E x (args.map (·.1)) h s = some (.null, h, s)) ∧
    (¬ (isPair x = true ∧ x ∈ args.map (·.1)) →
      After (answers (fun v => amongAny (fun a b s => E a b h s) v (args.map (·.2.map h.car))) (as.map h.car) s)
        (lsetDifferenceBang E x (args.map (·.1)) h s) fun bs r h' =>
          Seg h' r (pick false as bs) .null ∧ Relinked h h' as) := by
  have mem : x ∈ (args.map (·.1)).filter isPair ↔ isPair x = true ∧ x ∈ args.map (·.1) := by
    rw [List.mem_filter]; tauto
  constructor
  · intro hx
    have hm := mem.2 hx
    have ne : ((args.map (·.1)).filter isPair).isEmpty = false := by
      cases hl : (args.map (·.1)).filter isPair with
      | nil => rw [hl] at hm; cases hm
      | cons => rfl
    simp only [lsetDifferenceBang, ne, Bool.false_eq_true, if_false, List.contains_iff_mem, hm, if_true]
  · intro hx
    have hm : ¬ x ∈ (args.map (·.1)).filter isPair := fun h => hx (mem.1 h)
    by_cases he : ((args.map (·.1)).filter isPair).isEmpty = true
    · have emp : ∀ ws ∈ args.map (·.2.map h.car), ws = [] := by
        intro ws hw
        obtain ⟨p, hp, rfl⟩ := List.mem_map.1 hw
        have hnp : ¬ isPair p.1 = true := by
          have := List.isEmpty_iff.1 he
          rw [List.filter_eq_nil_iff] at this
          exact this p.1 (List.mem_map.2 ⟨p, hp, rfl⟩)
        have sp := segs p hp
        obtain ⟨y, bs⟩ := p
        cases sp with
        | nil => rfl
        | cons => exact (hnp rfl).elim
      rw [answers_false (fun v s => amongAny_empty _ v emp s)]
      refine ⟨x, h, by simp only [lsetDifferenceBang, he, if_true], ?_, Relinked.refl _ _⟩
      rw [pick_const _ _ _ _ (by simp)]
      simpa using seg
    · simp only [lsetDifferenceBang]
      rw [if_neg he, if_neg (by simpa [List.contains_iff_mem] using hm)]
      have fs := filterBang_spec (fun x h s =>
        everyArg (fun ys s => (memberOf E x ys h s).map fun (b, s) => (!b, s)) ((args.map (·.1)).filter isPair) s)
        rfl seg s
      have eqv : ∀ s, answers (fun v s => everyArg (fun ys s => (memberOf E v ys h s).map fun (b, s) => (!b, s))
          ((args.map (·.1)).filter isPair) s) (as.map h.car) s =
          (answers (fun v => amongAny (fun a b s => E a b h s) v (args.map (·.2.map h.car))) (as.map h.car) s).map
            fun (bs, s) => (bs.map (!·), s) := by
        intro s
        rw [answers_congr (fun v _ s => everyNot_spec E v segs s)]
        exact answers_complement (fun v _ s => amongAny (fun a b s => E a b h s) v (args.map (·.2.map h.car)) s) h _ s
      rw [eqv] at fs
      cases hA : answers (fun v => amongAny (fun a b s => E a b h s) v (args.map (·.2.map h.car))) (as.map h.car) s with
      | none =>
        rw [hA] at fs
        exact fs
      | some r =>
        obtain ⟨bs, s1⟩ := r
        rw [hA] at fs
        obtain ⟨r, h', e, sg, rel⟩ := fs
        rw [pick_not] at sg
        exact ⟨r, h', e, sg, rel⟩

theorem lsetDiffIntersectionBang_spec (E : Pred2 S) {h : Heap} {x : Obj} {as : List Nat}
    {args : List (Obj × List Nat)} (seg : Seg h x as .null) (segs : ∀ p ∈ args, Seg h p.1 p.2 .null) (s : S) :
    (x ∈ args.map (·.1) → lsetDiffIntersectionBang E x (args.map (·.1)) h s = some ((.null, x), h, s)) ∧
    (x ∉ args.map (·.1) → (∀ p ∈ args, ∀ a ∈ p.2, a ∉ as) →
      Steady2 h as (as.map h.car ++ (args.map (·.2.map h.car)).flatten) E →
      After (answers (fun v => amongAny (fun a b s => E a b h s) v (args.map (·.2.map h.car))) (as.map h.car) s)
        (lsetDiffIntersectionBang E x (args.map (·.1)) h s) fun bs r h' =>
          Seg h' r.1 (pick false as bs) .null ∧ Seg h' r.2 (pick true as bs) .null ∧ Relinked h h' as) := by
  have an := allNull_spec segs
  constructor
  · intro hx
    simp only [lsetDiffIntersectionBang, an, Option.bind_eq_bind, Option.bind_some, List.contains_iff_mem, hx, if_true]
    split
    · next hall =>
      obtain ⟨p, hp, rfl⟩ := List.mem_map.1 hx
      have hn : p.2 = [] := by
        have := List.all_eq_true.1 hall p hp
        simpa using this
      have sp := segs p hp
      obtain ⟨y, bs⟩ := p
      simp only at hn sp ⊢
      subst hn
      cases sp
      rfl
    · rfl
  · intro hx dis st
    simp only [lsetDiffIntersectionBang, an, Option.bind_eq_bind, Option.bind_some]
    by_cases hall : (args.all fun p => p.2.isEmpty) = true
    · have emp : ∀ ws ∈ args.map (·.2.map h.car), ws = [] := by
        intro ws hw
        obtain ⟨p, hp, rfl⟩ := List.mem_map.1 hw
        have := List.all_eq_true.1 hall p hp
        simp at this
        simp [this]
      rw [answers_false (fun v s => amongAny_empty _ v emp s), if_pos hall]
      refine ⟨_, h, rfl, ?_, ?_, Relinked.refl _ _⟩
      · rw [pick_const _ _ _ _ (by simp)]
        simpa using seg
      · rw [pick_const _ _ _ _ (by simp)]
        simpa using Seg.nil _
    · rw [if_neg hall, if_neg (by simpa [List.contains_iff_mem] using hx)]
      have steady : Steady h as (as.map h.car)
          (complement fun x h s => anyArg (fun ys s => memberOf E x ys h s) (args.map (·.1)) s) := by
        intro v hv h' s oc
        have segs' : ∀ p ∈ args, Seg h' p.1 p.2 .null := fun p hp =>
          (segs p hp).congr oc.next fun a ha => oc.cdr a ((segs p hp).lt a ha) (dis p hp a ha)
        have mc : args.map (·.2.map h'.car) = args.map (·.2.map h.car) :=
          List.map_congr_left fun p hp => List.map_congr_left fun a ha => oc.car a ((segs p hp).lt a ha)
        simp only [complement]
        rw [anyArg_spec E v segs', anyArg_spec E v segs, mc]
        congr 1
        have sub : ∀ ws ∈ args.map (·.2.map h.car), ∀ w ∈ ws, w ∈ (args.map (·.2.map h.car)).flatten :=
          fun ws h1 w h2 => List.mem_flatten.2 ⟨ws, h1, h2⟩
        generalize args.map (·.2.map h.car) = wss at sub st
        have key : ∀ (vss : List (List Obj)) (s : S), (∀ ws ∈ vss, ∀ w ∈ ws, w ∈ wss.flatten) →
            amongAny (fun a b s => E a b h' s) v vss s = amongAny (fun a b s => E a b h s) v vss s := by
          intro vss
          induction vss with
          | nil => intro s _; rfl
          | cons ws vss ih =>
            intro s sub
            simp only [amongAny]
            rw [among_congr (e' := fun a b s => E a b h s) (fun w hw s => st v (by
              simp only [List.mem_append]; exact Or.inl hv) w (by
              simp only [List.mem_append]; exact Or.inr (sub ws (by simp) w hw)) h' s oc)]
            congr 1
            funext r
            obtain ⟨b, s⟩ := r
            simp only [ih s fun ws h1 => sub ws (by simp [h1])]
        exact key wss s sub
      have ps := partitionBang_spec _ seg steady s
      have eqv : answers (fun v s => complement (fun x h s => anyArg (fun ys s => memberOf E x ys h s)
          (args.map (·.1)) s) v h s) (as.map h.car) s =
          (answers (fun v => amongAny (fun a b s => E a b h s) v (args.map (·.2.map h.car))) (as.map h.car) s).map
            fun (bs, s) => (bs.map (!·), s) := by
        rw [answers_complement]
        congr 1
        exact answers_congr (fun v _ s => anyArg_spec E v segs s) s
      rw [eqv] at ps
      cases hA : answers (fun v => amongAny (fun a b s => E a b h s) v (args.map (·.2.map h.car))) (as.map h.car) s with
      | none =>
        rw [hA] at ps
        exact ps
      | some r =>
        obtain ⟨bs, s1⟩ := r
        rw [hA] at ps
        obtain ⟨r, h', e, sg1, sg2, rel⟩ := ps
        rw [pick_not] at sg1 sg2
        exact ⟨r, h', e, sg1, sg2, rel⟩

theorem xorFold_spec (E : Pred2 S) {h0 : Heap} {L : List Nat} {c : Obj} {cs : List Nat} (as : List Nat) :
    ∀ {h : Heap} {x y : Obj} {bs : List Nat} (s : S), Seg h x as .null → Seg h y bs .null → Seg h c cs .null →
      as.Nodup → (∀ a ∈ as, a ∉ bs) → (∀ a ∈ as, a ∉ cs) → Relinked h0 h L → (∀ a ∈ as, a ∈ L) →
      Steady2 h0 L ((as ++ cs).map h0.car) E →
      After (adjoinOthers (fun a b s => E a b h0 s) (cs.map h0.car) (as.map h0.car) (bs.map h0.car) s)
        (pairFold (xorStep E c) x y h s) fun rs r h' => MadeOf h0 h h' (as ++ bs) r rs := by
  induction as with
  | nil =>
    intro h x y bs s sx sy _ _ _ _ _ _ _
    rw [pairFold, nullList_seg sx]
    cases sx
    exact ⟨y, h, rfl, bs, sy, rfl, fun c hc => hc, Relinked.refl _ _⟩
  | cons a as ih =>
    intro h x y bs s sx sy sc nd dis disc rel sub st
    rw [pairFold, nullList_seg sx]
    cases sx with
    | cons ha sx =>
    have nda := List.nodup_cons.1 nd
    have mcb : cs.map h.car = cs.map h0.car := List.map_congr_left fun b _ => rel.car b
    simp only [isNull_pair, Bool.false_eq_true, if_false, Option.bind_eq_bind, Option.bind_some, car_pair, cdr_pair,
      List.map_cons, adjoinOthers, xorStep, setCdrOf_pair]
    rw [rel.car a, memberOf_spec E _ rfl sc, mcb,
      among_congr (e := fun u v s => E u v h s) (e' := fun u v s => E u v h0 s) (fun w hw s =>
        st (h0.car a) (by simp) w (by simp only [List.map_append, List.mem_append]; exact Or.inr hw) h s rel.onlyCdrs)]
    have st' : Steady2 h0 L ((as ++ cs).map h0.car) E := fun v hv w hw =>
      st v (by simp only [List.cons_append, List.map_cons]; exact .tail _ hv) w
        (by simp only [List.cons_append, List.map_cons]; exact .tail _ hw)
    cases hM : among (fun u v s => E u v h0 s) (h0.car a) (cs.map h0.car) s with
    | none => simp [After]
    | some r =>
      obtain ⟨b, s1⟩ := r
      simp only [Option.bind_some]
      cases b with
      | true =>
        simp only [if_true, Option.bind_some]
        have ih := ih s1 sx sy sc nda.2 (fun c hc => dis c (by simp [hc])) (fun c hc => disc c (by simp [hc])) rel
          (fun c hc => sub c (by simp [hc])) st'
        cases hA : adjoinOthers (fun a b s => E a b h0 s) (cs.map h0.car) (as.map h0.car) (bs.map h0.car) s1 with
        | none =>
          rw [hA] at ih
          exact ih
        | some r =>
          obtain ⟨rs, s2⟩ := r
          rw [hA] at ih
          obtain ⟨r, h', e, ds, sd, mds, subc, relc⟩ := ih
          exact ⟨r, h', e, ds, sd, mds, fun c hc => List.mem_cons_of_mem _ (subc c hc),
            relc.mono fun c hc => List.mem_cons_of_mem _ hc⟩
      | false =>
        simp only [Bool.false_eq_true, if_false, Option.bind_some]
        have relq : Relinked h (setCdr h a y) [a] := Relinked.setCdr y (by simp)
        have sy' : Seg (setCdr h a y) (.pair a) (a :: bs) .null := by
          refine .cons ha ?_
          have : (setCdr h a y).cdr a = y := by simp [setCdr]
          rw [this]
          exact sy.setCdr (dis a (by simp))
        have perm : ∀ c, c ∈ as ++ a :: bs → c ∈ a :: as ++ bs := by
          intro c hc
          simp only [List.mem_append, List.mem_cons, List.cons_append] at hc ⊢
          tauto
        have ih := ih s1 (sx.setCdr (y := y) nda.1) sy' (sc.setCdr (disc a (by simp))) nda.2 (fun c hc hm => by
            rcases List.mem_cons.1 hm with e | hm
            · exact nda.1 (e ▸ hc)
            · exact dis c (by simp [hc]) hm)
          (fun c hc => disc c (by simp [hc]))
          (rel.trans (relq.mono fun c hc => sub c (by simp at hc; simp [hc])))
          (fun c hc => sub c (by simp [hc])) st'
        rw [List.map_cons] at ih
        cases hA : adjoinOthers (fun a b s => E a b h0 s) (cs.map h0.car) (as.map h0.car)
            (h0.car a :: bs.map h0.car) s1 with
        | none =>
          rw [hA] at ih
          exact ih
        | some r =>
          obtain ⟨rs, s2⟩ := r
          rw [hA] at ih
          obtain ⟨r, h', e, ds, sd, mds, subc, relc⟩ := ih
          exact ⟨r, h', e, ds, sd, mds, fun c hc => perm c (subc c hc),
            (relq.mono fun c hc => by simp at hc; simp [hc]).trans (relc.mono perm)⟩

theorem appendBang_made {h : Heap} {x y : Obj} {as bs : List Nat} (sx : Seg h x as .null) (sy : Seg h y bs .null)
    (dis : ∀ a ∈ as, a ∉ bs) :
    ∃ r h', appendBang h x y = some (r, h') ∧ Seg h' r (as ++ bs) .null ∧ Relinked h h' as := by
  cases as with
  | nil => cases sx; exact ⟨y, h, rfl, sy, Relinked.refl _ _⟩
  | cons a as =>
    have hx := sx.notNull (by simp)
    cases bs with
    | nil => cases sy; exact ⟨x, h, by simp [appendBang, hx], by simpa using sx, Relinked.refl _ _⟩
    | cons b bs =>
      have hy := sy.notNull (by simp)
      have nd := sx.nodup rfl
      obtain ⟨ps, p, ep, s1, hp, hlt⟩ := sx.last (by simp)
      have hl := lastPair_spec (by rw [hp]; rfl) s1
      have np : p ∉ ps := by
        rw [ep] at nd
        exact fun hm => (List.nodup_append.1 nd).2.2 p hm p (by simp) rfl
      have pm : p ∈ a :: as := by rw [ep]; simp
      refine ⟨x, setCdr h p y, by simp [appendBang, hx, hy, hl], ?_, Relinked.setCdr _ pm⟩
      rw [ep, List.append_assoc]
      refine (s1.setCdr np).append (.cons hlt ?_)
      have : (setCdr h p y).cdr p = y := by simp [setCdr]
      rw [this]
      exact sy.setCdr (dis p pm)

theorem amongAny_single (e : Obj → Obj → S → Option (Bool × S)) (v : Obj) (ws : List Obj) :
    amongAny e v [ws] = among e v ws := by
  funext s
  simp only [amongAny, Option.bind_eq_bind]
  cases among e v ws s with
  | none => rfl
  | some r => obtain ⟨b, s⟩ := r; cases b <;> rfl

theorem xor2_spec (E : Pred2 S) {h0 : Heap} {L : List Nat} {h : Heap} {x y : Obj} {as bs : List Nat} (s : S)
    (sx : Seg h x as .null) (sy : Seg h y bs .null) (dis : ∀ a ∈ as, a ∉ bs) (rel : Relinked h0 h L)
    (sub : ∀ a ∈ as ++ bs, a ∈ L) (st : Steady2 h0 L ((as ++ bs).map h0.car) E) :
    After (exclusive (fun a b s => E a b h0 s) (as.map h0.car) (bs.map h0.car) s) (xor2 E x y h s)
      fun rs r h' => MadeOf h0 h h' (as ++ bs) r rs := by
  have ndb := sy.nodup rfl
  have inA : ∀ v ∈ as.map h0.car, v ∈ (as ++ bs).map h0.car := fun v hv => by
    rw [List.map_append, List.mem_append]; exact Or.inl hv
  have inB : ∀ v ∈ bs.map h0.car, v ∈ (as ++ bs).map h0.car := fun v hv => by
    rw [List.map_append, List.mem_append]; exact Or.inr hv
  have mc : ∀ cs : List Nat, cs.map h.car = cs.map h0.car := fun cs => List.map_congr_left fun b _ => rel.car b
  by_cases hxy : y = x
  · subst hxy
    cases sx with
    | nil =>
      cases sy
      have e0 : xor2 E .null .null h s = some (.null, h, s) := by
        have := (lsetDiffIntersectionBang_spec E (args := [(.null, [])]) (Seg.nil (h := h) .null)
          (by intro p hp; simp at hp; subst hp; exact .nil _) s).1 (by simp)
        simp only [List.map_cons, List.map_nil] at this
        have d := (lsetDifferenceBang_spec E (args := [(.null, [])]) (Seg.nil (h := h) .null)
          (by intro p hp; simp at hp; subst hp; exact .nil _) s)
        simp [xor2, this, lsetDifferenceBang]
      rw [e0]
      exact ⟨.null, h, rfl, [], .nil _, rfl, by simp, Relinked.refl _ _⟩
    | @cons a as _ ha sx =>
      cases sy with
      | cons hb sy => exact (dis a (by simp) (by simp)).elim
  · have di := (lsetDiffIntersectionBang_spec E (args := [(x, as)]) sy
      (by intro p hp; simp at hp; subst hp; exact sx) s).2 (by simpa using hxy)
      (by intro p hp a ha; simp at hp; subst hp; exact dis a ha)
      (by
        intro v hv w hw h' s oc
        have big : ∀ u, u ∈ bs.map h.car ++ ([(x, as)].map (·.2.map h.car)).flatten → u ∈ (as ++ bs).map h0.car := by
          intro u hu
          simp only [List.map_cons, List.map_nil, List.flatten_cons, List.flatten_nil, List.append_nil, mc,
            List.mem_append] at hu
          exact hu.elim (inB u) (inA u)
        rw [st v (big v hv) w (big w hw) h' s
            (rel.onlyCdrs.trans (oc.mono fun a ha => sub a (by simp [ha]))),
          st v (big v hv) w (big w hw) h s rel.onlyCdrs])
    simp only [List.map_cons, List.map_nil, amongAny_single, mc] at di
    rw [answers_congr (q' := fun w => among (fun a b s => E a b h0 s) w (as.map h0.car)) (fun v hv s =>
      among_congr (fun w hw s => st v (inB v hv) w (inA w hw) h s rel.onlyCdrs) s)] at di
    simp only [exclusive, xor2, Option.bind_eq_bind]
    cases hA : answers (fun w => among (fun a b s => E a b h0 s) w (as.map h0.car)) (bs.map h0.car) s with
    | none =>
      rw [hA] at di
      simp only [After] at di
      simp [After, di]
    | some r =>
      obtain ⟨ans, s1⟩ := r
      rw [hA] at di
      obtain ⟨⟨d, c⟩, h1, e1, sd, sc, rel1⟩ := di
      simp only at sd sc
      have len : ans.length = bs.length := by rw [answers_length hA]; simp
      have sx1 : Seg h1 x as .null := sx.congr (Nat.le_of_eq rel1.next.symm) fun a ha => rel1.cdr a (dis a ha)
      have rel01 : Relinked h0 h1 L := rel.trans (rel1.mono fun a ha => sub a (by simp [ha]))
      have mc1 : ∀ cs : List Nat, cs.map h1.car = cs.map h0.car := fun cs =>
        List.map_congr_left fun b _ => rel01.car b
      simp only [e1, Option.bind_some, ← pick_map]
      have sideB : ∀ a ∈ bs, a ∈ as ++ bs := fun a ha => by simp [ha]
      have sideA : ∀ a ∈ as, a ∈ as ++ bs := fun a ha => by simp [ha]
      by_cases ho : pick false bs ans = []
      · have hc := pick_all true len ho
        rw [hc] at sc
        rw [ho] at sd
        cases sd
        have ey : y = c := seg_object sy sc
        subst ey
        have dd := (lsetDifferenceBang_spec E (args := [(y, bs)]) sx1
          (by intro p hp; simp at hp; subst hp; exact sc) s1).2 (by simp; intro _ e; exact hxy e.symm)
        simp only [List.map_cons, List.map_nil, amongAny_single, mc1] at dd
        rw [answers_congr (q' := fun w => among (fun a b s => E a b h0 s) w (bs.map h0.car)) (fun v hv s =>
          among_congr (fun w hw s => st v (inA v hv) w (inB w hw) h1 s rel01.onlyCdrs) s)] at dd
        simp only [ho, List.map_nil, List.isEmpty_nil, if_true, isNull_null]
        cases hB : answers (fun w => among (fun a b s => E a b h0 s) w (bs.map h0.car)) (as.map h0.car) s1 with
        | none =>
          rw [hB] at dd
          exact dd
        | some r =>
          obtain ⟨ans2, s2⟩ := r
          rw [hB] at dd
          obtain ⟨r, h2, e2, sr, rel2⟩ := dd
          exact ⟨r, h2, e2, _, sr, rfl, fun c hc => sideA c (pick_mem hc),
            (rel1.mono sideB).trans (rel2.mono sideA)⟩
      · have hd := sd.notNull ho
        have ho' : ((pick false bs ans).map h0.car).isEmpty = false := by
          cases h : pick false bs ans with
          | nil => exact (ho h).elim
          | cons => rfl
        simp only [hd, ho', Bool.false_eq_true, if_false]
        by_cases hcn : pick true bs ans = []
        · have hda := pick_all false len hcn
          rw [hda] at sd
          rw [hcn] at sc
          cases sc
          have ey : y = d := seg_object sy sd
          subst ey
          obtain ⟨r, h2, e2, sr, rel2⟩ := appendBang_made sx1 sd dis
          simp only [hcn, List.map_nil, List.isEmpty_nil, if_true, isNull_null, e2, Option.bind_some]
          exact ⟨r, h2, rfl, as ++ bs, sr, by simp, fun c hc => hc, (rel1.mono sideB).trans (rel2.mono sideA)⟩
        · have hcc := sc.notNull hcn
          have hc' : ((pick true bs ans).map h0.car).isEmpty = false := by
            cases h : pick true bs ans with
            | nil => exact (hcn h).elim
            | cons => rfl
          simp only [hcc, hc', Bool.false_eq_true, if_false]
          have xf := xorFold_spec E as s1 sx1 sd sc (sx.nodup rfl) (fun a ha hm => dis a ha (pick_mem hm))
            (fun a ha hm => dis a ha (pick_mem hm)) rel01 (fun a ha => sub a (sideA a ha))
            (by
              have big : ∀ u, u ∈ (as ++ pick true bs ans).map h0.car → u ∈ (as ++ bs).map h0.car := by
                intro u hu
                obtain ⟨a, ha, rfl⟩ := List.mem_map.1 hu
                rcases List.mem_append.1 ha with m | m
                · exact List.mem_map.2 ⟨a, sideA a m, rfl⟩
                · exact List.mem_map.2 ⟨a, sideB a (pick_mem m), rfl⟩
              exact fun v hv w hw => st v (big v hv) w (big w hw))
          cases hX : adjoinOthers (fun a b s => E a b h0 s) ((pick true bs ans).map h0.car) (as.map h0.car)
              ((pick false bs ans).map h0.car) s1 with
          | none =>
            rw [hX] at xf
            exact xf
          | some r =>
            obtain ⟨rs, s2⟩ := r
            rw [hX] at xf
            obtain ⟨r, h2, e2, ds, sds, mds, subd, rel2⟩ := xf
            have side : ∀ a, a ∈ as ++ pick false bs ans → a ∈ as ++ bs := by
              intro a ha
              rcases List.mem_append.1 ha with m | m
              · exact sideA a m
              · exact sideB a (pick_mem m)
            exact ⟨r, h2, e2, ds, sds, mds, fun c hc => side c (subd c hc), (rel1.mono sideB).trans (rel2.mono side)⟩

end Meevax.Linear
