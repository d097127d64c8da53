import Verif.Lemmas.Control

/-
What `windup!` and `exit` do when the thunks they call return.
-/

namespace Meevax.Control

variable {C W S P : Type} [DecidableEq P]

theorem steps_add (pr : Program C W S P) : ∀ (n m : Nat) (s t : Config C W S P),
    steps pr n s = some t → steps pr (n + m) s = steps pr m t
  | 0, m, s, t, h => by
    cases h
    rw [Nat.zero_add]
  | n + 1, m, s, t, h => by
    rw [show n + 1 + m = (n + m) + 1 by omega]
    simp only [steps] at h ⊢
    cases hs : step pr s with
    | none => rw [hs] at h; cases h
    | some u =>
      rw [hs] at h
      exact steps_add pr n m u t h

theorem steps_trans (pr : Program C W S P) {n m : Nat} {s t u : Config C W S P}
    (h : steps pr n s = some t) (h' : steps pr m t = some u) : steps pr (n + m) s = some u := by
  rw [steps_add pr n m s t h, h']

theorem steps_one (pr : Program C W S P) {s t : Config C W S P} (h : step pr s = some t) :
    steps pr 1 s = some t := by
  simp only [steps, h, Option.bind_some]

/-- The events of `windup!`, the oldest first, as the code produces them. -/
def windupEvents : Extents C P → Extents C P → List Event
  | [], [] => []
  | [], e :: t => windupEvents [] t ++ [.enter e.id]
  | x :: f, [] => .leave x.id :: windupEvents f []
  | x :: f, e :: t =>
    if x.id = e.id then [] else .leave x.id :: (windupEvents f t ++ [.enter e.id])

/-- The relation between the states before and after a `windup!`. -/
structure Wound (s s' : Config C W S P) (target : Extents C P) (events : List Event) : Prop where
  mode : ∃ w, s'.mode = .ret w
  stack : s'.stack = s.stack
  extents : s'.extents = target
  log : s'.log = events.reverse ++ s.log
  conts : ∀ (k : Nat) (x : Stack C W P × Extents C P), s.conts[k]? = some x → s'.conts[k]? = some x

/-- After the inner `windup!`, `((caar to))` is called and `to` is installed. -/
theorem rewind_exec (pr : Program C W S P) {e : Extent C P} {t : Extents C P}
    {rest : Stack C W P} {s : Config C W S P} {v : W} (hm : s.mode = .ret v)
    (hs : s.stack = .rewinding (e :: t) :: rest) (hb : Returns pr e.before) :
    ∃ n s', steps pr n s = some s' ∧ (∃ v, s'.mode = .ret v) ∧ s'.stack = rest ∧
      s'.extents = e :: t ∧ s'.log = .enter e.id :: s.log ∧
      ∀ (k : Nat) (x : Stack C W P × Extents C P), s.conts[k]? = some x → s'.conts[k]? = some x := by
  have h1 : steps pr 1 s = some (callThunk pr e.before (.rewound (e :: t) :: rest) s) := by
    refine steps_one pr ?_
    simp only [step, hm, returnTo, hs]
  obtain ⟨n, s1, w, h2, h3, h4, h5, h6, h7⟩ := hb s (.rewound (e :: t) :: rest)
  have h8 : steps pr 1 s1 = some { s1 with
      mode := .ret pr.unspecified, stack := rest, extents := e :: t, log := .enter e.id :: s1.log } := by
    refine steps_one pr ?_
    simp only [step, h3, returnTo, h4]
  refine ⟨_, _, steps_trans pr (steps_trans pr h1 h2) h8, ⟨_, rfl⟩, rfl, rfl, ?_, h7⟩
  show _ :: s1.log = _
  rw [h6]

theorem windup_exec (pr : Program C W S P) : ∀ (m : Nat) (source target : Extents C P)
    (s : Config C W S P), source.length + target.length ≤ m → s.mode = .windup source target →
    (∀ a b, a <:+ source → b <:+ target → (sameCell a b = true ↔ a = b)) →
    (∀ x ∈ source, Returns pr x.after) → (∀ x ∈ target, Returns pr x.before) →
    ∃ n s', steps pr n s = some s' ∧ Wound s s' target (windupEvents source target)
  | m, source, target, s, hlen, hm, hsame, hafter, hbefore => by
    by_cases hc : sameCell source target = true
    · have heq := (hsame _ _ (List.suffix_refl _) (List.suffix_refl _)).1 hc
      subst heq
      refine ⟨1, windup pr source source s, steps_one pr (by simp only [step, hm]), ?_⟩
      have hw : windup pr source source s =
          { s with mode := .ret pr.unspecified, extents := source } := by
        unfold windup
        simp only [hc, if_true]
      rw [hw]
      refine ⟨⟨_, rfl⟩, rfl, rfl, ?_, fun _ _ h => h⟩
      cases source with
      | nil => simp [windupEvents]
      | cons x f => simp [windupEvents]
    · match m, source, target with
      | m, [], [] => exact absurd rfl hc
      | 0, [], _ :: _ => simp at hlen
      | 0, _ :: _, _ => simp at hlen
      | m + 1, [], e :: t =>
        have h1 : steps pr 1 s = some { s with
            mode := .windup [] t, extents := [], stack := .rewinding (e :: t) :: s.stack } := by
          refine steps_one pr ?_
          simp only [step, hm, windup, if_neg hc]
        obtain ⟨n, s1, h2, h3⟩ := windup_exec pr m [] t
          { s with mode := .windup [] t, extents := [], stack := .rewinding (e :: t) :: s.stack }
          (by simp only [List.length_nil, List.length_cons] at hlen ⊢; omega) rfl
          (fun a b ha hb => hsame a b ha (hb.trans (List.suffix_cons _ _))) (by simp)
          (fun x hx => hbefore x (List.mem_cons_of_mem _ hx))
        obtain ⟨w, hw⟩ := h3.mode
        obtain ⟨n', s2, h4, h5, h6, h7, h8, h9⟩ := rewind_exec pr hw h3.stack
          (hbefore e (List.mem_cons_self ..))
        refine ⟨_, s2, steps_trans pr (steps_trans pr h1 h2) h4, h5, h6, h7, ?_, ?_⟩
        · rw [h8, h3.log]
          simp [windupEvents]
        · exact fun k x hk => h9 k x (h3.conts k x hk)
      | m + 1, x :: f, [] =>
        have h1 : steps pr 1 s = some (callThunk pr x.after (.unwoundLast (x :: f) [] :: s.stack)
            { s with extents := x :: f, log := .leave x.id :: s.log }) := by
          refine steps_one pr ?_
          simp only [step, hm, windup, if_neg hc]
        obtain ⟨n, s1, w, h2, h3, h4, h5, h6, h7⟩ := hafter x (List.mem_cons_self ..)
          { s with extents := x :: f, log := .leave x.id :: s.log } (.unwoundLast (x :: f) [] :: s.stack)
        have h8 : steps pr 1 s1 = some { s1 with
            mode := .windup f [], stack := .finish [] :: s.stack } := by
          refine steps_one pr ?_
          simp only [step, h3, returnTo, h4, List.tail_cons]
        obtain ⟨n', s2, h9, h10⟩ := windup_exec pr m f []
          { s1 with mode := .windup f [], stack := .finish [] :: s.stack }
          (by simp only [List.length_nil, List.length_cons] at hlen ⊢; omega) rfl
          (fun a b ha hb => hsame a b (ha.trans (List.suffix_cons _ _)) hb)
          (fun x hx => hafter x (List.mem_cons_of_mem _ hx)) (by simp)
        obtain ⟨w', hw'⟩ := h10.mode
        have h11 : steps pr 1 s2 = some { s2 with
            mode := .ret pr.unspecified, stack := s.stack, extents := [] } := by
          refine steps_one pr ?_
          have := h10.stack
          simp only at this
          simp only [step, hw', returnTo, this]
        refine ⟨_, _, steps_trans pr (steps_trans pr (steps_trans pr (steps_trans pr h1 h2) h8) h9) h11,
          ⟨_, rfl⟩, rfl, rfl, ?_, ?_⟩
        · show s2.log = _
          rw [h10.log]
          simp [windupEvents, h6]
        · exact fun k x hk => h10.conts k x (h7 k x hk)
      | m + 1, x :: f, e :: t =>
        have h1 : steps pr 1 s = some (callThunk pr x.after (.unwound (x :: f) (e :: t) :: s.stack)
            { s with extents := x :: f, log := .leave x.id :: s.log }) := by
          refine steps_one pr ?_
          simp only [step, hm, windup, if_neg hc]
        obtain ⟨n, s1, w, h2, h3, h4, h5, h6, h7⟩ := hafter x (List.mem_cons_self ..)
          { s with extents := x :: f, log := .leave x.id :: s.log } (.unwound (x :: f) (e :: t) :: s.stack)
        have h8 : steps pr 1 s1 = some { s1 with
            mode := .windup f t, stack := .rewinding (e :: t) :: s.stack } := by
          refine steps_one pr ?_
          simp only [step, h3, returnTo, h4, List.tail_cons]
        obtain ⟨n', s2, h9, h10⟩ := windup_exec pr m f t
          { s1 with mode := .windup f t, stack := .rewinding (e :: t) :: s.stack }
          (by simp only [List.length_cons] at hlen ⊢; omega) rfl
          (fun a b ha hb => hsame a b (ha.trans (List.suffix_cons _ _)) (hb.trans (List.suffix_cons _ _)))
          (fun x hx => hafter x (List.mem_cons_of_mem _ hx))
          (fun x hx => hbefore x (List.mem_cons_of_mem _ hx))
        obtain ⟨w', hw'⟩ := h10.mode
        obtain ⟨n2, s3, h11, h12, h13, h14, h15, h16⟩ := rewind_exec pr hw' h10.stack
          (hbefore e (List.mem_cons_self ..))
        refine ⟨_, s3, steps_trans pr (steps_trans pr (steps_trans pr (steps_trans pr h1 h2) h8) h9) h11,
          h12, h13, h14, ?_, ?_⟩
        · have hne : x.id ≠ e.id := by
            intro h
            apply hc
            simp only [sameCell, h, beq_self_eq_true]
          rw [h15, h10.log]
          simp [windupEvents, if_neg hne, h6]
        · exact fun k x hk => h16 k x (h10.conts k x (h7 k x hk))
  termination_by m => m

omit [DecidableEq P] in
theorem Known.suffix {w : World C W P} {a b : Extents C P} (h : Known w b) (hs : a <:+ b) :
    Known w a := by
  induction h with
  | nil => rw [List.suffix_nil.1 hs]; exact .nil
  | cons h1 h2 h3 h4 ih =>
    rcases List.suffix_cons_iff.1 hs with rfl | h
    · exact .cons h1 h2 h3 h4
    · exact ih h

omit [DecidableEq P] in
/-- From and to lists of the same length. -/
theorem windupEvents_equal {w : World C W P} : ∀ (a b : Extents C P), Known w a → Known w b →
    a.length = b.length →
    windupEvents a b = jumpEvents (a.map Extent.id) (b.map Extent.id) ∧
      commonLength (a.map Extent.id) (b.map Extent.id) ≤ a.length
  | [], [], _, _, _ => by simp [windupEvents, jumpEvents, commonLength]
  | [], _ :: _, _, _, h => by simp at h
  | _ :: _, [], _, _, h => by simp at h
  | x :: f, e :: t, ha, hb, h => by
    have hlen : f.length = t.length := by simpa using h
    by_cases hid : x.id = e.id
    · have : x :: f = e :: t := by
        refine (sameCell_iff ha hb).1 ?_
        simp only [sameCell, hid, beq_self_eq_true]
      rw [this]
      have hcl : ∀ l : List Nat, commonLength l l = l.length := by
        intro l
        have : ∀ l : List Nat, ((l.zip l).takeWhile fun x => x.1 == x.2) = l.zip l := by
          intro l
          induction l with
          | nil => rfl
          | cons i l ih =>
            simp only [List.zip_cons_cons, List.takeWhile_cons, beq_self_eq_true, if_true, ih]
        unfold commonLength
        rw [this]
        simp
      refine ⟨?_, ?_⟩
      · simp only [windupEvents, jumpEvents, hcl, if_true]
        simp
      · rw [hcl]; simp
    · obtain ⟨ih1, ih2⟩ := windupEvents_equal f t ha.tail hb.tail hlen
      have hcl : commonLength ((x :: f).map Extent.id) ((e :: t).map Extent.id) =
          commonLength (f.map Extent.id) (t.map Extent.id) := by
        unfold commonLength
        simp only [List.map_cons, List.reverse_cons]
        rw [List.zip_append (by simp [hlen])]
        rw [List.takeWhile_append]
        split
        · rename_i h1
          simp [hid]
          rw [h1]
          simp [hlen]
        · rfl
      refine ⟨?_, ?_⟩
      · unfold jumpEvents
        rw [hcl]
        simp only [windupEvents, if_neg hid, ih1, jumpEvents, List.map_cons, List.length_cons,
          List.length_map]
        rw [show f.length + 1 - commonLength (f.map Extent.id) (t.map Extent.id) =
          (f.length - commonLength (f.map Extent.id) (t.map Extent.id)) + 1 by omega,
          show t.length + 1 - commonLength (f.map Extent.id) (t.map Extent.id) =
          (t.length - commonLength (f.map Extent.id) (t.map Extent.id)) + 1 by omega]
        simp [List.take_succ_cons]
      · rw [hcl]
        simp only [List.length_cons]
        omega

omit [DecidableEq P] in
/-- From and to lists of different lengths. -/
theorem windupEvents_unequal {w : World C W P} : ∀ (a b : Extents C P), Known w a → Known w b →
    a.length ≠ b.length →
    windupEvents a b = (a.map Extent.id).map .leave ++ ((b.map Extent.id).reverse).map .enter
  | [], [], _, _, h => by simp at h
  | [], e :: t, ha, hb, h => by
    cases t with
    | nil => simp [windupEvents]
    | cons e' t' =>
      have := windupEvents_unequal [] (e' :: t') ha hb.tail (by simp)
      simp only [windupEvents] at this ⊢
      rw [this]
      simp
  | x :: f, [], ha, hb, h => by
    cases f with
    | nil => simp [windupEvents]
    | cons e' t' =>
      have := windupEvents_unequal (e' :: t') [] ha.tail hb (by simp)
      simp only [windupEvents] at this ⊢
      rw [this]
      simp
  | x :: f, e :: t, ha, hb, h => by
    have hid : x.id ≠ e.id := by
      intro hid
      have : x :: f = e :: t := by
        refine (sameCell_iff ha hb).1 ?_
        simp only [sameCell, hid, beq_self_eq_true]
      rw [this] at h
      exact h rfl
    have := windupEvents_unequal f t ha.tail hb.tail (by simpa using h)
    simp only [windupEvents, if_neg hid, this]
    simp

end Meevax.Control
