import Verif.Lemmas.SharedRead

/-! `fill-in-parts` of SRFI 38: every part that was not known gets its value. -/

namespace Meevax.Shared

variable {P : Nat → Option Raw} {N : Nat}

/-- The value of a part. -/
def Raw.value (P : Nat → Option Raw) : Raw → Raw
  | .obj o => .obj o
  | .thunk k => (P k).getD (.obj .nil)

/-- The heap after the parts of the nodes `ns` got their values. -/
def Filled (P : Nat → Option Raw) (h h' : Heap Raw) (ns : List Nat) : Prop :=
  ∀ m, h' m = if m ∈ ns then (h m).map (Raw.value P) else h m

theorem Filled.nil (h : Heap Raw) : Filled P h h [] := fun m => by simp

theorem Filled.append {h h₁ h₂ : Heap Raw} {ns ms : List Nat} (f₁ : Filled P h h₁ ns) (f₂ : Filled P h₁ h₂ ms)
    (hd : ∀ n ∈ ns, n ∉ ms) : Filled P h h₂ (ns ++ ms) := by
  intro m
  rw [f₂ m, f₁ m]
  by_cases h₁ : m ∈ ns
  · simp [h₁, hd m h₁]
  · by_cases h₂ : m ∈ ms
    · simp [h₁, h₂]
    · simp [h₁, h₂]

mutual

theorem RDen.full {h : Heap Raw} : ∀ {D : Datum} {r : Raw} {ns : List Nat}, RDen h N P D r ns →
    ∀ n ∈ ns, (h n).isEmpty = false
  | _, _, _, .nil => by simp
  | _, _, _, .atom _ => by simp
  | _, _, _, .noString _ _ => by simp
  | _, _, _, .noVector _ _ => by simp
  | _, _, _, .ref _ => by simp
  | _, _, _, .label _ h => h.full
  | _, _, _, .string (s := s) _ h hs => by
    cases s with
    | nil => exact absurd rfl hs
    | cons => simp [h, Node.isEmpty]
  | _, _, _, .pair _ h ha hd => by
    intro n hn
    rcases List.mem_cons.1 hn with rfl | hn
    · simp [h, Node.isEmpty]
    · rcases List.mem_append.1 hn with hn | hn
      · exact ha.full n hn
      · exact hd.full n hn
  | _, _, _, .vector (xs := xs) _ h hx hs => by
    intro n hn
    rcases List.mem_cons.1 hn with rfl | hn
    · cases xs with
      | nil => exact absurd rfl hx
      | cons => simp [h, Node.isEmpty]
    · exact hs.full n hn

theorem RDens.full {h : Heap Raw} : ∀ {Ds : List Datum} {rs : List Raw} {ns : List Nat}, RDens h N P Ds rs ns →
    ∀ n ∈ ns, (h n).isEmpty = false
  | _, _, _, .nil => by simp
  | _, _, _, .cons h hs => by
    intro n hn
    rcases List.mem_append.1 hn with hn | hn
    · exact h.full n hn
    · exact hs.full n hn

end

mutual

/-- What a datum shows depends only on the nodes it shows. -/
theorem RDen.congr {h h' : Heap Raw} (he : ∀ n, (h n).isEmpty = true → h' n = h n) : ∀ {D : Datum} {r : Raw} {ns : List Nat},
    RDen h N P D r ns → (∀ n ∈ ns, h' n = h n) → RDen h' N P D r ns
  | _, _, _, .nil, _ => .nil
  | _, _, _, .atom a, _ => .atom a
  | _, _, _, .noString h₁ h₂, _ => .noString h₁ (by rw [he _ (by rw [h₂]; rfl), h₂])
  | _, _, _, .noVector h₁ h₂, _ => .noVector h₁ (by rw [he _ (by rw [h₂]; rfl), h₂])
  | _, _, _, .string h₁ h₂ h₃, hn => .string h₁ (by rw [hn _ (by simp), h₂]) h₃
  | _, _, _, .pair h₁ h₂ h₃ h₄, hn => .pair h₁ (by rw [hn _ (by simp), h₂]) (h₃.congr he fun n h => hn n (by simp [h]))
      (h₄.congr he fun n h => hn n (by simp [h]))
  | _, _, _, .vector h₁ h₂ h₃ h₄, hn => .vector h₁ (by rw [hn _ (by simp), h₂]) h₃ (h₄.congr he fun n h => hn n (by simp [h]))
  | _, _, _, .label h₁ h₂, hn => .label h₁ (h₂.congr he hn)
  | _, _, _, .ref h₁, _ => .ref h₁

theorem RDens.congr {h h' : Heap Raw} (he : ∀ n, (h n).isEmpty = true → h' n = h n) : ∀ {Ds : List Datum} {rs : List Raw}
    {ns : List Nat}, RDens h N P Ds rs ns → (∀ n ∈ ns, h' n = h n) → RDens h' N P Ds rs ns
  | _, _, _, .nil, _ => .nil
  | _, _, _, .cons h₁ h₂, hn => .cons (h₁.congr he fun n h => hn n (by simp [h])) (h₂.congr he fun n h => hn n (by simp [h]))

end

theorem RDen.thunk {h : Heap Raw} {D : Datum} {r : Raw} {ns : List Nat} (hd : RDen h N P D r ns) {k : Nat}
    (hr : r = .thunk k) (hP : ∀ j i, P j ≠ some (.thunk i)) : ns = [] ∧ ∃ o, P k = some (.obj o) := by
  cases hd with
  | ref hk => cases hr; exact ⟨rfl, _, hk⟩
  | label hk => subst hr; exact absurd hk (hP _ _)
  | nil | atom | noString | noVector | string | pair | vector => cases hr

theorem Filled.empty {h h' : Heap Raw} {ns : List Nat} (hf : Filled P h h' ns) (hns : ∀ n ∈ ns, (h n).isEmpty = false) :
    ∀ n, (h n).isEmpty = true → h' n = h n := by
  intro n hn
  rw [hf n, if_neg]
  intro hm
  rw [hns n hm] at hn
  cases hn

theorem setNode_self (h : Heap Raw) (n : Nat) (x : Node Raw) : setNode h n x n = x := by simp [setNode]

theorem setNode_ne (h : Heap Raw) {n m : Nat} (x : Node Raw) (hm : m ≠ n) : setNode h n x m = h m := by simp [setNode, hm]

/-- The labels as `unthunk` finds them. -/
structure Finds (P : Nat → Option Raw) (parts : List (Nat × Option Raw)) : Prop where
  value : ∀ k o, P k = some (.obj o) → ∀ f, unthunk parts (f + 1) k = some (.obj o)
  known : ∀ j i, P j ≠ some (.thunk i)

/-- The elements of a vector get their values, one after another. -/
theorem fillVec_spec {parts : List (Nat × Option Raw)} (hP : Finds P parts) {n : Nat}
    {Ds : List Datum} {post : List Raw} {ns : List Nat}
    (hw : ∀ D r ms h, RDen h N P D r ms → D ∈ Ds → ms.Nodup →
      ∃ M, ∀ f, M ≤ f → ∃ h', fill parts f r h = some h' ∧ Filled P h h' ms) :
    ∀ {h : Heap Raw} {pre : List Raw}, RDens h N P Ds post ns → (n :: ns).Nodup → h n = .vector (pre ++ post) →
      (h n).isEmpty = false →
      ∃ M, ∀ f, M ≤ f → ∃ h', fillVec (fill parts f) (unthunk parts f) n pre.length post.length h = some h' ∧
        h' n = .vector (pre ++ post.map (Raw.value P)) ∧
        ∀ m, m ≠ n → h' m = if m ∈ ns then (h m).map (Raw.value P) else h m := by
  induction Ds generalizing post ns with
  | nil =>
    intro h pre hd hn hh he
    cases hd
    exact ⟨0, fun f _ => ⟨h, rfl, by simpa using hh, fun m hm => by simp⟩⟩
  | cons D Ds ih =>
    intro h pre hd hn hh he
    cases hd with
    | cons hd hs =>
      rename_i v vs ns ms
      obtain ⟨hn₁, hn₂⟩ := List.nodup_cons.1 hn
      obtain ⟨hn₃, hn₄, hn₅⟩ := List.nodup_append.1 hn₂
      have hget : (pre ++ v :: vs)[pre.length]? = some v := by simp
      have hempty : ∀ m, (h m).isEmpty = true → m ≠ n := fun m hm e => by rw [e, he] at hm; cases hm
      cases v with
      | thunk k =>
        obtain ⟨rfl, o, ho⟩ := hd.thunk rfl hP.known
        have hset : (pre ++ Raw.thunk k :: vs).set pre.length (.obj o) = (pre ++ [.obj o]) ++ vs := by simp
        obtain ⟨M, hM⟩ := ih (fun D r ms h h₁ h₂ h₃ => hw D r ms h h₁ (by simp [h₂]) h₃)
          (h := setNode h n (.vector ((pre ++ [.obj o]) ++ vs))) (pre := pre ++ [.obj o]) (post := vs) (ns := ms)
          (hs.congr (fun m hm => setNode_ne _ _ (hempty m hm)) fun m hm => setNode_ne _ _ (by
            rintro rfl; exact hn₁ (by simp [hm]))) (by simpa using hn) (setNode_self _ _ _)
          (by rw [setNode_self]; cases pre <;> rfl)
        refine ⟨M + 1, fun f hf => ?_⟩
        obtain ⟨h', h₁, h₂, h₃⟩ := hM f (by omega)
        obtain ⟨f, rfl⟩ : ∃ g, f = g + 1 := ⟨f - 1, by omega⟩
        refine ⟨h', ?_, ?_, fun m hm => ?_⟩
        · simp only [List.length_cons]
          rw [fillVec.eq_def]
          simp only [hh, hget, hP.value k o ho, Option.bind_some, hset]
          simpa using h₁
        · rw [h₂]; simp [Raw.value, ho]
        · rw [h₃ m hm, setNode_ne _ _ hm]; simp
      | obj o =>
        obtain ⟨M₁, hM₁⟩ := hw D _ ns h hd (by simp) hn₃
        -- the heap after the first element does not depend on the depth
        let g : Heap Raw := fun m => if m ∈ ns then (h m).map (Raw.value P) else h m
        have hg : Filled P h g ns := fun m => rfl
        have hgn : g n = h n := by simp only [g]; rw [if_neg]; intro hm; exact hn₁ (by simp [hm])
        obtain ⟨M₂, hM₂⟩ := ih (fun D r ms h h₁ h₂ h₃ => hw D r ms h h₁ (by simp [h₂]) h₃)
          (h := g) (pre := pre ++ [.obj o]) (post := vs) (ns := ms)
          (hs.congr (hg.empty hd.full) fun m hm => by
            simp only [g]; rw [if_neg]; intro hm'; exact hn₅ m hm' m hm rfl)
          (List.nodup_cons.2 ⟨fun h => hn₁ (by simp [h]), hn₄⟩) (by rw [hgn, hh]; simp) (by rw [hgn]; exact he)
        refine ⟨M₁ + M₂, fun f hf => ?_⟩
        obtain ⟨h₁, h₂, h₃⟩ := hM₁ f (by omega)
        obtain rfl : h₁ = g := funext h₃
        obtain ⟨h', h₄, h₅, h₆⟩ := hM₂ f (by omega)
        refine ⟨h', ?_, ?_, fun m hm => ?_⟩
        · simp only [List.length_cons]
          rw [fillVec.eq_def]
          simp only [hh, hget, h₂, Option.bind_some]
          simpa using h₄
        · rw [h₅]; simp [Raw.value]
        · rw [h₆ m hm]
          simp only [g]
          by_cases h₁ : m ∈ ns
          · have : m ∉ ms := fun h => hn₅ m h₁ m h rfl
            simp [h₁, this]
          · by_cases h₂ : m ∈ ms <;> simp [h₁, h₂]

/-- One part of a pair. -/
theorem fill_atom {parts : List (Nat × Option Raw)} {f : Nat} {r : Raw} {h : Heap Raw} (hr : ∀ n, r ≠ .obj (.ref n)) :
    fill parts (f + 1) r h = some h := by
  rw [fill.eq_def]
  cases r with
  | thunk => rfl
  | obj o =>
    cases o with
    | nil | atom => rfl
    | ref n => exact absurd rfl (hr n)

mutual

theorem fill_spec {parts : List (Nat × Option Raw)} (hP : Finds P parts) : ∀ (D : Datum) (r : Raw) (ns : List Nat) (h : Heap Raw),
    RDen h N P D r ns → ns.Nodup → ∃ M, ∀ f, M ≤ f → ∃ h', fill parts f r h = some h' ∧ Filled P h h' ns
  | .nil, r, ns, h, hd, hn => by
    cases hd
    refine ⟨1, fun f hf => ?_⟩
    obtain ⟨f, rfl⟩ : ∃ g, f = g + 1 := ⟨f - 1, by omega⟩
    exact ⟨h, rfl, .nil h⟩
  | .atom a, r, ns, h, hd, hn => by
    cases hd
    refine ⟨1, fun f hf => ?_⟩
    obtain ⟨f, rfl⟩ : ∃ g, f = g + 1 := ⟨f - 1, by omega⟩
    exact ⟨h, rfl, .nil h⟩
  | .ref a, r, ns, h, hd, hn => by
    cases hd
    refine ⟨1, fun f hf => ?_⟩
    obtain ⟨f, rfl⟩ : ∃ g, f = g + 1 := ⟨f - 1, by omega⟩
    exact ⟨h, rfl, .nil h⟩
  | .label k D, r, ns, h, hd, hn => by
    cases hd with
    | label _ hd => exact fill_spec hP D r ns h hd hn
  | .string s, r, ns, h, hd, hn => by
    refine ⟨1, fun f hf => ?_⟩
    obtain ⟨f, rfl⟩ : ∃ g, f = g + 1 := ⟨f - 1, by omega⟩
    cases hd with
    | noString hN hh => exact ⟨h, by rw [fill.eq_def]; simp only [hh], .nil h⟩
    | string hN hh hs =>
      refine ⟨h, by rw [fill.eq_def]; simp only [hh], fun m => ?_⟩
      split
      · rename_i hm
        obtain rfl := List.mem_singleton.1 hm
        simp [hh, Node.map]
      · rfl
  | .pair a d, r, ns, h, hd, hn => by
    cases hd with
    | pair hN hh ha hd =>
      rename_i n x y ns ms
      obtain ⟨hn₁, hn₂⟩ := List.nodup_cons.1 hn
      obtain ⟨hn₃, hn₄, hn₅⟩ := List.nodup_append.1 hn₂
      obtain ⟨M₁, hM₁⟩ := fill_spec hP a x ns h ha hn₃
      -- the heap after the first part
      let g : Heap Raw := fun m => if m = n then .pair (x.value P) y else if m ∈ ns then (h m).map (Raw.value P) else h m
      have hg : ∀ m, (h m).isEmpty = true → g m = h m := fun m hm => by
        have : m ≠ n := by rintro rfl; simp [hh, Node.isEmpty] at hm
        simp only [g, if_neg this]
        rw [if_neg]
        intro hm'
        rw [ha.full m hm'] at hm
        cases hm
      have hgd : ∀ m ∈ ms, g m = h m := fun m hm => by
        have : m ≠ n := by rintro rfl; exact hn₁ (by simp [hm])
        simp only [g, if_neg this]
        rw [if_neg]
        intro hm'
        exact hn₅ m hm' m hm rfl
      have hgn : g n = .pair (x.value P) y := by simp [g]
      obtain ⟨M₂, hM₂⟩ := fill_spec hP d y ms g (hd.congr hg hgd) hn₄
      refine ⟨M₁ + M₂ + 2, fun f hf => ?_⟩
      obtain ⟨f, rfl⟩ : ∃ g, f = g + 2 := ⟨f - 2, by omega⟩
      have step : (match (generalizing := false) x with
         | .thunk k => (unthunk parts (f + 1) k).map fun z => setNode h n (.pair z y)
         | a => fill parts (f + 1) a h) = some g := by
        cases x with
        | thunk k =>
          obtain ⟨rfl, o, ho⟩ := ha.thunk rfl hP.known
          simp only [hP.value k o ho, Option.map_some, Option.some.injEq]
          funext m
          simp only [setNode, g, Raw.value, ho, Option.getD_some, List.not_mem_nil, if_false]
        | obj o =>
          obtain ⟨h', h₁, h₂⟩ := hM₁ (f + 1) (by omega)
          simp only [h₁, Option.some.injEq]
          funext m
          rw [h₂ m]
          simp only [g]
          by_cases hm : m = n
          · subst hm
            have : m ∉ ns := fun h => hn₁ (by simp [h])
            simp [this, hh, Raw.value]
          · simp [hm]
      have step₂ : ∃ h', (match (generalizing := false) g n with
          | .pair a (.thunk k) => (unthunk parts (f + 1) k).map fun z => setNode g n (.pair a z)
          | .pair _ d => fill parts (f + 1) d g
          | _ => none) = some h' ∧ Filled P h h' (n :: (ns ++ ms)) := by
        rw [hgn]
        cases y with
        | thunk k =>
          obtain ⟨rfl, o, ho⟩ := hd.thunk rfl hP.known
          refine ⟨setNode g n (.pair (x.value P) (.obj o)), by simp only [hP.value k o ho, Option.map_some], fun m => ?_⟩
          by_cases hm : m = n
          · subst hm; simp [setNode, hh, Node.map, Raw.value, ho]
          · simp [setNode, hm, g]
        | obj o =>
          obtain ⟨h', h₁, h₂⟩ := hM₂ (f + 1) (by omega)
          refine ⟨h', h₁, fun m => ?_⟩
          rw [h₂ m]
          by_cases hm : m = n
          · subst hm
            have : m ∉ ms := fun h => hn₁ (by simp [h])
            simp [this, hgn, hh, Node.map, Raw.value]
          · by_cases h₁ : m ∈ ns
            · have : m ∉ ms := fun h => hn₅ m h₁ m h rfl
              simp [hm, h₁, this, g]
            · by_cases h₂ : m ∈ ms <;> simp [hm, h₁, h₂, g]
      obtain ⟨h', h₁, h₂⟩ := step₂
      refine ⟨h', ?_, h₂⟩
      rw [fill.eq_def]
      simp only [hh]
      have key : ∀ (e : Option (Heap Raw)) (k : Heap Raw → Option (Heap Raw)), e = some g → k g = some h' →
          e.bind k = some h' := fun e k h₁ h₂ => by rw [h₁]; exact h₂
      exact key _ _ step h₁
  | .vector Ds, r, ns, h, hd, hn => by
    cases hd with
    | noVector hN hh =>
      refine ⟨1, fun f hf => ?_⟩
      obtain ⟨f, rfl⟩ : ∃ g, f = g + 1 := ⟨f - 1, by omega⟩
      refine ⟨h, ?_, .nil h⟩
      rw [fill.eq_def]
      simp only [hh, List.length_nil]
      rfl
    | vector hN hh hx hs =>
      rename_i n xs ns
      obtain ⟨M, hM⟩ := fillVec_spec hP (fun D r ms h h₁ h₂ h₃ => fill_spec hP D r ms h h₁ h₃) (pre := []) hs hn hh (by
        cases xs with
        | nil => exact absurd rfl hx
        | cons => simp [hh, Node.isEmpty])
      refine ⟨M + 1, fun f hf => ?_⟩
      obtain ⟨f, rfl⟩ : ∃ g, f = g + 1 := ⟨f - 1, by omega⟩
      obtain ⟨h', h₁, h₂, h₃⟩ := hM f (by omega)
      refine ⟨h', ?_, fun m => ?_⟩
      · rw [fill.eq_def]
        simp only [hh]
        exact h₁
      · by_cases hm : m = n
        · subst hm; simp [h₂, hh, Node.map]
        · rw [h₃ m hm]; simp [hm]

end

end Meevax.Shared
