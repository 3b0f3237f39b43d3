import Verif.Spec.Evaluator

/-! # Lemmas on the evaluation of optimistic constraints -/

set_option linter.unusedSectionVars false

namespace Verif

section
variable {A V : Type} [DecidableEq A] [DecidableEq V]

theorem groupMap_lookup {α κ : Type} [DecidableEq κ] (l : List (κ × α)) (k : κ) :
    (groupMap l).lookup k =
      if k ∈ l.map Prod.fst then some ((l.filter fun x => x.1 = k).map Prod.snd) else none := by
  have key : ∀ ks : List κ, (ks.map fun k => (k, (l.filter fun x => x.1 = k).map Prod.snd)).lookup k =
      if k ∈ ks then some ((l.filter fun x => x.1 = k).map Prod.snd) else none := by
    intro ks
    induction ks with
    | nil => simp
    | cons a t ih =>
      rw [List.map_cons, List.lookup_cons]
      by_cases h : k = a
      · subst h
        simp
      · rw [beq_false_of_ne h]
        simp only [ih, List.mem_cons, h, false_or]
  rw [groupMap, key]
  simp only [List.mem_dedup]

theorem mem_uniqueReferences {c : OptConstraint A V} {l : OptLiteral A} :
    l ∈ c.uniqueReferences ↔ c.left = .literal l ∨ c.right = .literal l := by
  unfold OptConstraint.uniqueReferences
  rw [List.mem_dedup, List.mem_append]
  have key : ∀ e : OptExpr A V, l ∈ e.literals ↔ e = .literal l := by
    intro e
    cases e with
    | number v => simp [OptExpr.literals]
    | literal l' => simp [OptExpr.literals, eq_comm]
  rw [key, key]

theorem foldl_max_lt : ∀ (l : List ℕ) (a n : ℕ), l.foldl max a < n ↔ a < n ∧ ∀ x ∈ l, x < n
  | [], a, n => by simp
  | b :: t, a, n => by
    rw [List.foldl_cons, foldl_max_lt t]
    simp only [List.mem_cons, forall_eq_or_imp, max_lt_iff]
    tauto

theorem firstEvaluable_lt {c : OptConstraint A V} {n : ℕ} : c.firstEvaluableStep < n ↔ c.Known n := by
  rw [OptConstraint.firstEvaluableStep, foldl_max_lt]
  unfold OptConstraint.Known OptConstraint.MentionsStep
  refine and_congr_right fun _ => ?_
  simp only [List.mem_map, mem_uniqueReferences]
  constructor
  · rintro h i (⟨l, h1, h2⟩ | ⟨l, h1, h2⟩)
    · exact h i ⟨l, .inl h1, h2⟩
    · exact h i ⟨l, .inr h1, h2⟩
  · rintro h i ⟨l, h1 | h1, h2⟩
    · exact h i (.inl ⟨l, h1, h2⟩)
    · exact h i (.inr ⟨l, h1, h2⟩)

theorem reference_le {c : OptConstraint A V} {l : OptLiteral A} (h : l ∈ c.uniqueReferences) :
    l.instrIdx ≤ c.firstEvaluableStep := by
  have h1 := (firstEvaluable_lt (c := c)).1 (Nat.lt_succ_self _)
  refine Nat.lt_succ_iff.1 (h1.2 _ ?_)
  rcases mem_uniqueReferences.1 h with h | h
  · exact .inl ⟨l, h, rfl⟩
  · exact .inr ⟨l, h, rfl⟩

/-- What the evaluator knows after the given states. -/
structure EvalInv (limb : V → ℕ → V) (cs : List (OptConstraint A V)) (states : List (ExecState A V))
    (ev : OptEvaluator A V) : Prop where
  index : ev.instructionIndex = states.length
  holds : AllHold limb cs states
  right : ∀ f v, ev.memory f = some v → ∃ st, states[f.1]? = some st ∧ v = f.2.get st
  has : ∀ c ∈ cs, ∀ l ∈ c.uniqueReferences, l.instrIdx < c.firstEvaluableStep → l.instrIdx < states.length →
    (ev.memory (l.instrIdx, l.val.toFetch)).isSome

theorem evalInv_new (limb : V → ℕ → V) (cs : List (OptConstraint A V)) :
    EvalInv limb cs [] (OptEvaluator.new (A := A) (V := V)) :=
  ⟨rfl, fun _ _ h => absurd h.1 (by simp), fun _ _ h => (by cases h), fun _ _ _ _ _ h => absurd h (by simp)⟩

theorem literal_value (limb : V → ℕ → V) (l : OptLiteral A) (st : ExecState A V) :
    (match l.val with
      | .registerLimb _ i => (pure (limb (l.val.toFetch.get st) i) : Except LoopStop V)
      | .pc => pure (l.val.toFetch.get st)) =
    .ok (match l.val with
      | .registerLimb a i => limb (st.reg a) i
      | .pc => st.pc) := by
  cases l.val <;> rfl

/-- A literal that is known has the value read off the states. -/
theorem stepExpr_ok {limb : V → ℕ → V} {cs : List (OptConstraint A V)} {states : List (ExecState A V)}
    {ev : OptEvaluator A V} (hi : EvalInv limb cs states ev) (st : ExecState A V) {c : OptConstraint A V}
    (hc : c ∈ cs) (hs : c.firstEvaluableStep = states.length) {e : OptExpr A V}
    (he : c.left = e ∨ c.right = e) :
    ∃ v, stepExpr limb ev.instructionIndex st ev.memory e = .ok v ∧
      e.read limb (states ++ [st]) = some v := by
  cases e with
  | number v => exact ⟨v, rfl, rfl⟩
  | literal l =>
    have hm : l ∈ c.uniqueReferences := mem_uniqueReferences.2 he
    have hle := reference_le hm
    rw [hs] at hle
    rw [stepExpr, hi.index, if_pos hle]
    simp only [OptExpr.read, OptLiteral.read]
    by_cases heq : l.instrIdx = states.length
    · rw [stepFetch, if_pos heq, heq, List.getElem?_append_right (le_refl _), Nat.sub_self]
      exact ⟨_, literal_value limb l st, rfl⟩
    · have hlt : l.instrIdx < states.length := by omega
      rw [stepFetch, if_neg heq]
      have := hi.has c hc l hm (by omega) hlt
      obtain ⟨v, hv⟩ := Option.isSome_iff_exists.1 this
      obtain ⟨st', h1, h2⟩ := hi.right _ _ hv
      rw [hv, List.getElem?_append_left hlt, h1, h2]
      exact ⟨_, literal_value limb l st', rfl⟩

theorem stepAll_ok {limb : V → ℕ → V} {cs : List (OptConstraint A V)} {states : List (ExecState A V)}
    {ev : OptEvaluator A V} (hi : EvalInv limb cs states ev) (st : ExecState A V) :
    ∀ l : List (OptConstraint A V), (∀ c ∈ l, c ∈ cs ∧ c.firstEvaluableStep = states.length) →
      ∃ b, stepAll limb ev.instructionIndex st ev.memory l = .ok b ∧
        (b = true ↔ ∀ c ∈ l, c.Holds limb (states ++ [st]))
  | [], _ => ⟨true, rfl, by simp⟩
  | c :: t, h => by
    obtain ⟨hc, hs⟩ := h c (by simp)
    obtain ⟨v, h1, h2⟩ := stepExpr_ok hi st hc hs (.inl rfl)
    obtain ⟨w, h3, h4⟩ := stepExpr_ok hi st hc hs (.inr rfl)
    obtain ⟨b, hb1, hb2⟩ := stepAll_ok hi st t fun c' hc' => h c' (by simp [hc'])
    have hH : c.Holds limb (states ++ [st]) ↔ v = w := by
      constructor
      · rintro ⟨u, a1, a2⟩
        rw [h2] at a1
        rw [h4] at a2
        cases a1
        cases a2
        rfl
      · rintro rfl
        exact ⟨v, h2, h4⟩
    have hcn : stepConstraint limb ev.instructionIndex st ev.memory c = .ok (decide (v = w)) := by
      rw [stepConstraint, h1, h3]
      rfl
    have hd : stepAll limb ev.instructionIndex st ev.memory (c :: t) =
        if decide (v = w) then stepAll limb ev.instructionIndex st ev.memory t else .ok false := by
      rw [stepAll, hcn]
      rfl
    rw [hd]
    by_cases hvw : v = w
    · refine ⟨b, by simp [hvw, hb1], ?_⟩
      rw [hb2]
      simp only [List.mem_cons, forall_eq_or_imp, hH, hvw, true_and]
    · refine ⟨false, by simp [hvw], ?_⟩
      simp only [List.mem_cons, forall_eq_or_imp, hH, hvw, false_and]
      simp

theorem storeFetches_apply (step : ℕ) (st : ExecState A V) : ∀ (l : List (LocalFetch A))
    (m : Fetch A → Option V) (f : Fetch A), storeFetches step st l m f =
      if f.1 = step ∧ f.2 ∈ l then some (f.2.get st) else m f
  | [], m, f => by simp [storeFetches]
  | a :: t, m, f => by
    rw [storeFetches, storeFetches_apply step st t]
    by_cases h : f.1 = step ∧ f.2 ∈ t
    · rw [if_pos h, if_pos ⟨h.1, by simp [h.2]⟩]
    · rw [if_neg h]
      by_cases h2 : f = (step, a)
      · subst h2
        simp
      · rw [Function.update_of_ne h2, if_neg]
        rintro ⟨h3, h4⟩
        rcases List.mem_cons.1 h4 with h4 | h4
        · exact h2 (by rw [← h3, ← h4])
        · exact h ⟨h3, h4⟩

theorem read_append {limb : V → ℕ → V} {states : List (ExecState A V)} (more : List (ExecState A V))
    {e : OptExpr A V} {v : V} (h : e.read limb states = some v) :
    e.read limb (states ++ more) = some v := by
  cases e with
  | number w => exact h
  | literal l =>
    simp only [OptExpr.read, OptLiteral.read, Option.map_eq_some_iff] at h ⊢
    obtain ⟨st, h1, h2⟩ := h
    exact ⟨st, by rw [List.getElem?_append_left (List.getElem?_eq_some_iff.1 h1).1, h1], h2⟩

theorem holds_append {limb : V → ℕ → V} {states : List (ExecState A V)} (more : List (ExecState A V))
    {c : OptConstraint A V} (h : c.Holds limb states) : c.Holds limb (states ++ more) := by
  obtain ⟨v, h1, h2⟩ := h
  exact ⟨v, read_append more h1, read_append more h2⟩

/-- The values a known constraint has are determined by the states. -/
theorem read_of_known {limb : V → ℕ → V} {states : List (ExecState A V)} (more : List (ExecState A V))
    {e : OptExpr A V} (h : ∀ l, e = .literal l → l.instrIdx < states.length) :
    e.read limb (states ++ more) = e.read limb states := by
  cases e with
  | number w => rfl
  | literal l =>
    simp only [OptExpr.read, OptLiteral.read]
    rw [List.getElem?_append_left (h l rfl)]

theorem holds_of_append {limb : V → ℕ → V} {states : List (ExecState A V)} (more : List (ExecState A V))
    {c : OptConstraint A V} (hk : c.Known states.length) :
    c.Holds limb (states ++ more) ↔ c.Holds limb states := by
  unfold OptConstraint.Holds
  rw [read_of_known more fun l hl => hk.2 _ (.inl ⟨l, hl, rfl⟩),
    read_of_known more fun l hl => hk.2 _ (.inr ⟨l, hl, rfl⟩)]

theorem allHold_prefix {limb : V → ℕ → V} {cs : List (OptConstraint A V)} {states : List (ExecState A V)}
    {more : List (ExecState A V)} (h : AllHold limb cs (states ++ more)) : AllHold limb cs states := by
  intro c hc hk
  rw [← holds_of_append more hk]
  refine h c hc ⟨by simp only [List.length_append]; have := hk.1; omega, fun i hi => ?_⟩
  have := hk.2 i hi
  simp only [List.length_append]
  omega

/-- One step of the evaluator. -/
theorem tryNext_ok {limb : V → ℕ → V} {cs : List (OptConstraint A V)} {states : List (ExecState A V)}
    {ev : OptEvaluator A V} (hi : EvalInv limb cs states ev) (st : ExecState A V) :
    (AllHold limb cs (states ++ [st]) ∧ ∃ ev', ev.tryNext limb st (.fromConstraints cs) = .ok (some ev') ∧
      EvalInv limb cs (states ++ [st]) ev') ∨
    (¬ AllHold limb cs (states ++ [st]) ∧ ev.tryNext limb st (.fromConstraints cs) = .ok none) := by
  -- the constraints checked at this step
  have hnew : AllHold limb cs (states ++ [st]) ↔
      ∀ c ∈ cs, c.firstEvaluableStep = states.length → c.Holds limb (states ++ [st]) := by
    constructor
    · intro h c hc hs
      refine h c hc ?_
      rw [← firstEvaluable_lt, List.length_append, List.length_singleton]
      omega
    · intro h c hc hk
      rw [← firstEvaluable_lt, List.length_append, List.length_singleton] at hk
      by_cases hs : c.firstEvaluableStep = states.length
      · exact h c hc hs
      · exact holds_append _ (hi.holds c hc (firstEvaluable_lt.1 (by omega)))
  have hchk : ∃ b, ev.check limb st (.fromConstraints cs) = .ok b ∧
      (b = true ↔ AllHold limb cs (states ++ [st])) := by
    simp only [OptEvaluator.check, OptConstraints.fromConstraints, groupMap_lookup]
    by_cases hm : ev.instructionIndex ∈ (cs.map fun c => (c.firstEvaluableStep, c)).map Prod.fst
    · rw [if_pos hm]
      obtain ⟨b, h1, h2⟩ := stepAll_ok hi st (((cs.map fun c => (c.firstEvaluableStep, c)).filter
        fun x => x.1 = ev.instructionIndex).map Prod.snd) (by
        intro c hc
        simp only [List.mem_map, List.mem_filter, decide_eq_true_eq] at hc
        obtain ⟨x, ⟨⟨c', hc', rfl⟩, h2⟩, rfl⟩ := hc
        exact ⟨hc', by rw [← hi.index, ← h2]⟩)
      refine ⟨b, h1, ?_⟩
      rw [h2, hnew]
      constructor
      · intro h c hc hs
        refine h c ?_
        simp only [List.mem_map, List.mem_filter, decide_eq_true_eq]
        exact ⟨_, ⟨⟨c, hc, rfl⟩, by rw [hi.index]; exact hs⟩, rfl⟩
      · intro h c hc
        simp only [List.mem_map, List.mem_filter, decide_eq_true_eq] at hc
        obtain ⟨x, ⟨⟨c', hc', rfl⟩, h2⟩, rfl⟩ := hc
        exact h c' hc' (by rw [← hi.index, ← h2])
    · rw [if_neg hm]
      refine ⟨true, rfl, ?_⟩
      rw [hnew]
      refine ⟨fun _ c hc hs => absurd ?_ hm, fun _ => rfl⟩
      simp only [List.mem_map]
      exact ⟨_, ⟨c, hc, rfl⟩, by rw [hi.index]; exact hs⟩
  obtain ⟨b, hb1, hb2⟩ := hchk
  have hfet : ∀ f : Fetch A, ev.nextMemory st (.fromConstraints cs) f =
      if f.1 = states.length ∧ ∃ c ∈ cs, ∃ l ∈ c.uniqueReferences, l.instrIdx < c.firstEvaluableStep ∧
        l.instrIdx = states.length ∧ l.val.toFetch = f.2 then some (f.2.get st) else ev.memory f := by
    intro f
    simp only [OptEvaluator.nextMemory, OptConstraints.fromConstraints, groupMap_lookup]
    set L := cs.flatMap fun c => (c.uniqueReferences.filter fun l => c.firstEvaluableStep > l.instrIdx).map
        fun l => (l.instrIdx, l.val.toFetch) with hL
    have hmL : ∀ x, x ∈ L ↔ ∃ c ∈ cs, ∃ l ∈ c.uniqueReferences, l.instrIdx < c.firstEvaluableStep ∧
        (l.instrIdx, l.val.toFetch) = x := by
      intro x
      rw [hL]
      simp only [List.mem_flatMap, List.mem_map, List.mem_filter, gt_iff_lt, decide_eq_true_eq]
      constructor
      · rintro ⟨c, hc, l, ⟨h1, h2⟩, h3⟩
        exact ⟨c, hc, l, h1, h2, h3⟩
      · rintro ⟨c, hc, l, h1, h2, h3⟩
        exact ⟨c, hc, l, ⟨h1, h2⟩, h3⟩
    by_cases hm : ev.instructionIndex ∈ L.map Prod.fst
    · rw [if_pos hm]
      simp only [storeFetches_apply, hi.index]
      refine if_congr (and_congr_right fun _ => ?_) rfl rfl
      simp only [List.mem_map, List.mem_filter, decide_eq_true_eq, hmL]
      constructor
      · rintro ⟨x, ⟨⟨c, hc, l, h1, h2, rfl⟩, h3⟩, h4⟩
        exact ⟨c, hc, l, h1, h2, h3, h4⟩
      · rintro ⟨c, hc, l, h1, h2, h3, h4⟩
        exact ⟨_, ⟨⟨c, hc, l, h1, h2, rfl⟩, h3⟩, h4⟩
    · rw [if_neg hm, if_neg]
      rintro ⟨-, c, hc, l, h1, h2, h3, -⟩
      refine hm (List.mem_map.2 ⟨_, (hmL _).2 ⟨c, hc, l, h1, h2, rfl⟩, ?_⟩)
      rw [hi.index]
      exact h3
  by_cases hb : b = true
  · subst hb
    refine .inl ⟨hb2.1 rfl, ⟨ev.instructionIndex + 1, ev.nextMemory st (.fromConstraints cs)⟩, ?_, ?_,
      hb2.1 rfl, ?_, ?_⟩
    · rw [OptEvaluator.tryNext, hb1]
      rfl
    · simp [hi.index]
    · intro f v hv
      simp only [hfet] at hv
      split at hv
      · rename_i h
        cases hv
        refine ⟨st, ?_, rfl⟩
        rw [h.1, List.getElem?_append_right (le_refl _), Nat.sub_self]
        rfl
      · obtain ⟨st', h1, h2⟩ := hi.right f v hv
        exact ⟨st', by rw [List.getElem?_append_left (List.getElem?_eq_some_iff.1 h1).1, h1], h2⟩
    · intro c hc l hl h1 h2
      simp only [hfet]
      split
      · rfl
      · rename_i h
        refine hi.has c hc l hl h1 ?_
        rw [List.length_append, List.length_singleton] at h2
        by_contra h3
        exact h ⟨by omega, c, hc, l, hl, h1, by omega, rfl⟩
  · refine .inr ⟨fun h => hb (hb2.2 h), ?_⟩
    rw [Bool.not_eq_true] at hb
    rw [OptEvaluator.tryNext, hb1, hb]
    rfl

/-- A run of the evaluator. -/
theorem runEvaluator_ok {limb : V → ℕ → V} {cs : List (OptConstraint A V)} :
    ∀ (more states : List (ExecState A V)) {ev : OptEvaluator A V}, EvalInv limb cs states ev →
      (AllHold limb cs (states ++ more) ∧ ∃ ev', runEvaluator limb (.fromConstraints cs) more ev =
        .ok (some ev') ∧ EvalInv limb cs (states ++ more) ev') ∨
      (¬ AllHold limb cs (states ++ more) ∧ runEvaluator limb (.fromConstraints cs) more ev = .ok none)
  | [], states, ev, hi => .inl ⟨by simpa using hi.holds, ev, rfl, by simpa using hi⟩
  | st :: t, states, ev, hi => by
    rcases tryNext_ok hi st with ⟨-, ev', h2, h3⟩ | ⟨h1, h2⟩
    · have e : runEvaluator limb (.fromConstraints cs) (st :: t) ev =
          runEvaluator limb (.fromConstraints cs) t ev' := by
        rw [runEvaluator, h2]
        rfl
      rw [e]
      have := runEvaluator_ok t (states ++ [st]) h3
      rwa [List.append_assoc, List.singleton_append] at this
    · refine .inr ⟨fun h => h1 (allHold_prefix (more := t) (by simpa using h)), ?_⟩
      rw [runEvaluator, h2]
      rfl

end

end Verif
