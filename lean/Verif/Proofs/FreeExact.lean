import Verif.Proofs.FreeVariables
import Verif.Proofs.RangeOptimizer
import Verif.Spec.FreeVariables
import Verif.Props.Solve

/-!
# Which constraints are removed with free variables (C109)
-/

namespace Verif
namespace FreeExact

open GExpr

set_option linter.unusedSectionVars false

variable {p : ℕ} [Fact p.Prime] {V : Type} [LinearOrder V]

/-! ### Solving for a variable -/

theorem combineLoop_nil (q : List (GExpr p V × GExpr p V)) : combineLoop q [] = q := by
  induction q with
  | nil => rfl
  | cons f t ih => rw [combineLoop, removeFirst, ih]

theorem trySolve_iff {x : V} {q : List (GExpr p V × GExpr p V)} {l : List (V × ZMod p)} {c : ZMod p}
    (hw : WF (mk q l c)) : (∃ r, trySolveFor (mk q l c) x = .ok (some r)) ↔
      (∃ k, (x, k) ∈ l) ∧ ∀ ab ∈ q, ¬ Occurs x ab.1 ∧ ¬ Occurs x ab.2 := by
  obtain ⟨-, hs, -⟩ := wf_inv hw
  unfold trySolveFor
  cases h : coefficientOf (mk q l c) x with
  | none =>
    simp only [Except.ok.injEq, reduceCtorEq, exists_false, false_iff, not_and]
    rintro ⟨k, hk⟩
    unfold coefficientOf at h
    rw [show (mk q l c).linear = l from rfl, lookup_of_mem hs hk] at h
    cases h
  | some k =>
    have hk := coefficient_ne_zero hw h
    have hm : (x, k) ∈ l := lookup_eq_some_mem h
    simp only [if_neg hk]
    have hiff : x ∈ vars (mk q l c - scale k (var x)) ↔ ∃ ab ∈ q, x ∈ vars ab.1 ∨ x ∈ vars ab.2 := by
      refine ⟨vars_sub_var hs h hk, fun hq => ?_⟩
      change x ∈ vars (add (mk q l c) (neg (scale k (var x))))
      have hn : neg (scale k (var x)) = mk [] [(x, -k)] 0 := by
        simp [var, scale, hk, neg, negQ, scaleQ]
      rw [hn]
      simp only [add, quadratic, linear, constant]
      rw [mem_vars_mk]
      left
      have : combineRemovingZeros q [] = q := by
        unfold combineRemovingZeros
        split
        · simp
        · exact combineLoop_nil q
      rw [this]
      exact hq
    split
    · rename_i hx
      simp only [Except.ok.injEq, reduceCtorEq, exists_false, false_iff, not_and]
      intro _ hq
      obtain ⟨ab, hab, ho⟩ := hiff.1 hx
      rcases ho with ho | ho
      · exact (hq ab hab).1 (mem_vars_iff_occurs.1 ho)
      · exact (hq ab hab).2 (mem_vars_iff_occurs.1 ho)
    · rename_i hx
      refine ⟨fun _ => ⟨⟨k, hm⟩, fun ab hab => ⟨fun ho => ?_, fun ho => ?_⟩⟩, fun _ => ⟨_, rfl⟩⟩
      · exact hx (hiff.2 ⟨ab, hab, Or.inl (mem_vars_iff_occurs.2 ho)⟩)
      · exact hx (hiff.2 ⟨ab, hab, Or.inr (mem_vars_iff_occurs.2 ho)⟩)

theorem canAlways_iff (x : V) {e : GExpr p V} (hw : WF e) :
    ∃ r, canAlwaysBeSatisfied x e = .ok r ∧ (r = true ↔ SolvableFor x e) := by
  have base : ∀ {q : List (GExpr p V × GExpr p V)} {l : List (V × ZMod p)} {c : ZMod p},
      WF (mk q l c) → (∀ a b, ¬ (q = [(a, b)] ∧ l = [] ∧ c = 0)) → ∃ r, (do
        match ← trySolveFor (mk q l c) x with
        | some _ => pure true
        | none => pure false : Except Panic Bool) = .ok r ∧ (r = true ↔ SolvableFor x (mk q l c)) := by
    intro q l c hw hn
    obtain ⟨o, ho, -⟩ := trySolveFor_spec hw x
    have hi := trySolve_iff (x := x) hw
    rw [ho] at hi ⊢
    have hl : SolvableFor x (mk q l c) ↔
        (∃ k, (x, k) ∈ l) ∧ ∀ ab ∈ q, ¬ Occurs x ab.1 ∧ ¬ Occurs x ab.2 := by
      constructor
      · intro h
        cases h with
        | linear _ _ _ k h hq => exact ⟨⟨k, h⟩, hq⟩
        | left a b h => exact absurd ⟨rfl, rfl, rfl⟩ (hn a b)
        | right a b h => exact absurd ⟨rfl, rfl, rfl⟩ (hn a b)
      · rintro ⟨⟨k, h⟩, hq⟩
        exact .linear q l c k h hq
    rw [← hl] at hi
    cases o with
    | none =>
      refine ⟨false, rfl, ?_⟩
      rw [← hi]
      simp
    | some s =>
      refine ⟨true, rfl, ?_⟩
      rw [← hi]
      simp
  induction e using ind with
  | h q l c ih =>
    rcases q with _ | ⟨⟨a, b⟩, _ | ⟨y, q⟩⟩
    · rw [canAlwaysBeSatisfied]
      · exact base hw (by simp)
      · simp
    · rcases l with _ | ⟨y, l⟩
      · rw [canAlwaysBeSatisfied]
        by_cases hc : c = 0
        · subst hc
          obtain ⟨o, ho, -⟩ := trySolveFor_spec hw x
          have hi := trySolve_iff (x := x) hw
          rw [ho] at hi ⊢
          cases o with
          | some s =>
            exfalso
            obtain ⟨⟨k, hk⟩, -⟩ := hi.1 ⟨s, rfl⟩
            cases hk
          | none =>
            obtain ⟨h1, -, -⟩ := wf_inv hw
            obtain ⟨w1, w2, -, -⟩ := h1 (a, b) List.mem_cons_self
            obtain ⟨r1, e1, p1⟩ := (ih (a, b) List.mem_cons_self).1 w1
            obtain ⟨r2, e2, p2⟩ := (ih (a, b) List.mem_cons_self).2 w2
            simp only at e1 e2 p1 p2
            refine ⟨r1 || r2, ?_, ?_⟩
            · show (if (0 : ZMod p) = 0 then _ else _) = _
              rw [if_pos rfl, e1]
              cases r1 with
              | true => rfl
              | false => exact e2
            · rw [Bool.or_eq_true, p1, p2]
              constructor
              · rintro (h | h)
                · exact .left a b h
                · exact .right a b h
              · intro h
                cases h with
                | linear _ _ _ k h hq => cases h
                | left _ _ h => exact Or.inl h
                | right _ _ h => exact Or.inr h
        · obtain ⟨r, h1, h2⟩ := base hw (by simp [hc])
          refine ⟨r, ?_, h2⟩
          rw [← h1]
          obtain ⟨o, ho, -⟩ := trySolveFor_spec hw x
          rw [ho]
          cases o with
          | some s => rfl
          | none =>
            show (if c = 0 then _ else _) = _
            rw [if_neg hc]
            rfl
      · rw [canAlwaysBeSatisfied]
        · exact base hw (by simp)
        · simp
    · rw [canAlwaysBeSatisfied]
      · exact base hw (by simp)
      · simp

/-! ### Removable constraints -/

theorem filter_single {α : Type} {P : α → Bool} {l : List α} :
    (l.filter P).length = 1 ↔ ∃ a f r, l = a ++ f :: r ∧ (∀ g ∈ a ++ r, P g = false) ∧ P f = true := by
  induction l with
  | nil => simp
  | cons x t ih =>
    rw [List.filter_cons]
    split
    · rename_i hx
      rw [List.length_cons, Nat.succ_inj, List.length_eq_zero_iff, List.filter_eq_nil_iff]
      constructor
      · intro h
        exact ⟨[], x, t, rfl, fun g hg => by simpa using h g hg, hx⟩
      · rintro ⟨a, f, r, h, h1, h2⟩
        cases a with
        | nil =>
          cases h
          intro g hg
          simpa using h1 g hg
        | cons y a =>
          cases h
          rw [h1 x (by simp)] at hx
          cases hx
    · rename_i hx
      rw [ih]
      constructor
      · rintro ⟨a, f, r, rfl, h1, h2⟩
        refine ⟨x :: a, f, r, rfl, fun g hg => ?_, h2⟩
        rcases List.mem_cons.1 hg with rfl | hg
        · simpa using hx
        · exact h1 g hg
      · rintro ⟨a, f, r, h, h1, h2⟩
        cases a with
        | nil =>
          cases h
          exact absurd h2 hx
        | cons y a =>
          cases h
          exact ⟨a, f, r, rfl, fun g hg => h1 g (List.mem_cons_of_mem _ hg), h2⟩

theorem isNone_iff {e : GExpr p V} : e.tryToNumber.isNone = true ↔ ∀ k, e ≠ const k := by
  constructor
  · rintro h k rfl
    exact absurd h (by simp [tryToNumber, tryToKnown, const])
  · intro h
    cases hk : e.tryToNumber with
    | none => rfl
    | some k => exact absurd (tryToNumber_eq hk) (h k)

theorem isNone_false_iff {e : GExpr p V} : e.tryToNumber.isNone = false ↔ ∃ k, e = const k := by
  rw [← Bool.not_eq_true, isNone_iff]
  push Not
  rfl

theorem degreeOf_const (x : V) (k : ZMod p) : (const k : GExpr p V).degreeOf x = 0 := by
  simp [const, degreeOf, degreeOfQ, Linear.lookup]

theorem removable_iff {f : ZMod p → Bool} {x : V} {c : ConstraintRef p V} (hw : c.WF)
    (hid : ∀ b, c = .bus b → ∃ id, b.busId.tryToNumber = some id) :
    removableVia f x c = .ok true ↔ RemovableVia f x c := by
  cases c with
  | alg e =>
    obtain ⟨r, h1, h2⟩ := canAlways_iff x (e := e) hw
    rw [removableVia, h1]
    simp only [Except.ok.injEq]
    exact h2
  | bus b =>
    obtain ⟨id, hid⟩ := hid b rfl
    rw [removableVia]
    have hk : knownBusId b = .ok id := by
      unfold knownBusId
      rw [hid]
    rw [hk, ok_bind]
    simp only [pure, Except.pure, Except.ok.injEq, Bool.and_eq_true, Bool.not_eq_true',
      decide_eq_true_eq, List.all_eq_true]
    rw [filter_single]
    have hb := tryToNumber_eq hid
    constructor
    · rintro ⟨⟨h1, l, g, r, h2, h3, h4⟩, h5⟩
      refine ⟨⟨id, hb, h1⟩, l, g, r, h2, fun a ha => isNone_false_iff.1 (h3 a ha),
        isNone_iff.1 h4, h5 g ?_⟩
      rw [h2]; simp
    · rintro ⟨⟨id', h0, h1⟩, l, g, r, h2, h3, h4, h5⟩
      have : id' = id := by
        rw [hb] at h0
        unfold const at h0
        injection h0 with _ _ h0
        exact h0.symm
      subst this
      refine ⟨⟨h1, l, g, r, h2, fun a ha => isNone_false_iff.2 (h3 a ha), isNone_iff.2 h4⟩, ?_⟩
      intro a ha
      rw [h2, List.mem_append, List.mem_cons] at ha
      by_cases hag : a = g
      · rw [hag]; exact h5
      · obtain ⟨k, rfl⟩ := h3 a (by
          rw [List.mem_append]
          rcases ha with ha | ha | ha
          · exact Or.inl ha
          · exact absurd ha hag
          · exact Or.inr ha)
        rw [degreeOf_const]
        omega

/-! ### The only constraint -/

theorem split_unique {α : Type} {P : α → Prop} {s : List α} {e : α} :
    (∃ l r, s = l ++ e :: r ∧ (∀ y ∈ l, ¬ P y) ∧ ∀ y ∈ r, ¬ P y) ↔
      ∃ i : ℕ, s[i]? = some e ∧ ∀ (j : ℕ) d, s[j]? = some d → P d → j = i := by
  constructor
  · rintro ⟨l, r, rfl, hl, hr⟩
    refine ⟨l.length, by simp, fun j d hj hd => ?_⟩
    rcases lt_trichotomy j l.length with h | h | h
    · rw [List.getElem?_append_left h] at hj
      exact absurd hd (hl d (List.mem_of_getElem? hj))
    · exact h
    · rw [List.getElem?_append_right (by omega)] at hj
      obtain ⟨m, hm⟩ : ∃ m, j - l.length = m + 1 := ⟨j - l.length - 1, by omega⟩
      rw [hm, List.getElem?_cons_succ] at hj
      exact absurd hd (hr d (List.mem_of_getElem? hj))
  · rintro ⟨i, hi, hu⟩
    obtain ⟨hlt, he⟩ := List.getElem?_eq_some_iff.1 hi
    refine ⟨s.take i, s.drop (i + 1), ?_, fun y hy hP => ?_, fun y hy hP => ?_⟩
    · rw [← he, List.getElem_cons_drop, List.take_append_drop]
    · obtain ⟨j, hj⟩ := List.mem_iff_getElem?.1 hy
      rw [List.getElem?_take] at hj
      split at hj
      · have := hu j y hj hP
        omega
      · cases hj
    · obtain ⟨j, hj⟩ := List.mem_iff_getElem?.1 hy
      rw [List.getElem?_drop] at hj
      have := hu _ y hj hP
      omega

theorem onlyIn_iff {s : ConstraintSystem p V} {x : V} {c : ConstraintRef p V} :
    OnlyIn s x c ↔ ∃ i, refAt s i = some c ∧ c.Mentions x ∧
      ∀ j d, refAt s j = some d → d.Mentions x → j = i := by
  constructor
  · intro h
    cases h with
    | alg l e r h ho hl hr hb =>
      obtain ⟨i, h1, h2⟩ := split_unique (P := Occurs x).1 ⟨l, r, h, hl, hr⟩
      refine ⟨.alg i, by simp [refAt, h1], ho, fun j d hj hd => ?_⟩
      cases j with
      | alg j =>
        simp only [refAt, Option.map_eq_some_iff] at hj
        obtain ⟨e', hj, rfl⟩ := hj
        rw [h2 j e' hj hd]
      | bus j =>
        simp only [refAt, Option.map_eq_some_iff] at hj
        obtain ⟨b, hj, rfl⟩ := hj
        obtain ⟨f, hf, hd⟩ := hd
        exact absurd hd (hb b (List.mem_of_getElem? hj) f hf)
      | derived j => cases hj
    | bus l b r h ho hl hr ha =>
      obtain ⟨i, h1, h2⟩ := split_unique (P := fun b : BusInteraction (GExpr p V) =>
        ∃ f ∈ b.fields, Occurs x f).1 ⟨l, r, h, fun y hy ⟨f, hf, h⟩ => hl y hy f hf h,
          fun y hy ⟨f, hf, h⟩ => hr y hy f hf h⟩
      refine ⟨.bus i, by simp [refAt, h1], ho, fun j d hj hd => ?_⟩
      cases j with
      | bus j =>
        simp only [refAt, Option.map_eq_some_iff] at hj
        obtain ⟨e', hj, rfl⟩ := hj
        rw [h2 j e' hj hd]
      | alg j =>
        simp only [refAt, Option.map_eq_some_iff] at hj
        obtain ⟨e, hj, rfl⟩ := hj
        exact absurd hd (ha e (List.mem_of_getElem? hj))
      | derived j => cases hj
  · rintro ⟨i, hi, hm, hu⟩
    cases i with
    | alg i =>
      simp only [refAt, Option.map_eq_some_iff] at hi
      obtain ⟨e, hi, rfl⟩ := hi
      obtain ⟨l, r, h, hl, hr⟩ := split_unique (P := Occurs x).2 ⟨i, hi, fun j d hj hd => by
        have := hu (.alg j) (.alg d) (by simp [refAt, hj]) hd
        injection this⟩
      refine .alg l e r h hm hl hr fun b hb f hf ho => ?_
      obtain ⟨j, hj⟩ := List.mem_iff_getElem?.1 hb
      have := hu (.bus j) (.bus b) (by simp [refAt, hj]) ⟨f, hf, ho⟩
      cases this
    | bus i =>
      simp only [refAt, Option.map_eq_some_iff] at hi
      obtain ⟨b, hi, rfl⟩ := hi
      obtain ⟨l, r, h, hl, hr⟩ := split_unique (P := fun b : BusInteraction (GExpr p V) =>
        ∃ f ∈ b.fields, Occurs x f).2 ⟨i, hi, fun j d hj hd => by
          have := hu (.bus j) (.bus d) (by simp [refAt, hj]) hd
          injection this⟩
      refine .bus l b r h hm (fun y hy f hf ho => hl y hy ⟨f, hf, ho⟩)
        (fun y hy f hf ho => hr y hy ⟨f, hf, ho⟩) fun e he ho => ?_
      obtain ⟨j, hj⟩ := List.mem_iff_getElem?.1 he
      have := hu (.alg j) (.alg e) (by simp [refAt, hj]) ho
      cases this
    | derived i => cases hi

theorem filterMap_single {α β : Type} {g : α → Option β} {i : α} {c : β} {l : List α}
    (hn : l.Nodup) (hi : i ∈ l) (hc : g i = some c) (hu : ∀ j ∈ l, ∀ d, g j = some d → j = i) :
    l.filterMap g = [c] := by
  induction l with
  | nil => cases hi
  | cons y t ih =>
    rw [List.nodup_cons] at hn
    rcases List.mem_cons.1 hi with rfl | hi
    · rw [List.filterMap_cons, hc]
      simp only [List.cons.injEq, true_and]
      rw [List.filterMap_eq_nil_iff]
      intro j hj
      cases hg : g j with
      | none => rfl
      | some d =>
        have := hu j (List.mem_cons_of_mem _ hj) d hg
        rw [this] at hj
        exact absurd hj hn.1
    · have hy : g y = none := by
        cases hg : g y with
        | none => rfl
        | some d =>
          have := hu y List.mem_cons_self d hg
          rw [← this] at hi
          exact absurd hi hn.1
      rw [List.filterMap_cons, hy]
      exact ih hn.2 hi fun j hj => hu j (List.mem_cons_of_mem _ hj)

theorem referencing_single {s : ConstraintSystem p V} {x : V} {c : ConstraintRef p V}
    (h : OnlyIn s x c) : (Indexed.ofSystem s).constraintsReferencing [x] = .ok [c] := by
  obtain ⟨i, hi, hm, hu⟩ := onlyIn_iff.1 h
  rw [Indexed.constraintsReferencing_ok (Indexed.inv_ofSystem s)]
  congr 1
  have hmem : ∀ j, j ∈ (Indexed.ofSystem s).itemsReferencing [x] ↔ OccursIn s x j := by
    intro j
    rw [Indexed.mem_itemsReferencing]
    simp only [List.mem_singleton, exists_eq_left]
    exact mem_variableOccurrences
  refine filterMap_single (i := i) ?_ ((hmem i).2 (occursIn_of_refAt hi hm)) hi fun j hj d hd => ?_
  · unfold Indexed.itemsReferencing; exact nodup_eraseDups _
  · refine hu j d hd ?_
    have ho := (hmem j).1 hj
    have hd : refAt s j = some d := hd
    cases j with
    | alg j =>
      obtain ⟨e, he, ho⟩ := ho
      simp only [refAt, he, Option.map_some, Option.some.injEq] at hd
      rw [← hd]; exact ho
    | bus j =>
      obtain ⟨e, he, ho⟩ := ho
      simp only [refAt, he, Option.map_some, Option.some.injEq] at hd
      rw [← hd]; exact ho
    | derived j => cases hd

theorem freeVariables_mem {f : ZMod p → Bool} {ix : Indexed p V} {l r : List V}
    (h : freeVariables f ix l = .ok r) {x : V} (hx : x ∈ l) {c : ConstraintRef p V}
    (hc : ix.constraintsReferencing [x] = .ok [c]) (hr : removableVia f x c = .ok true) : x ∈ r := by
  induction l generalizing r with
  | nil => cases hx
  | cons y t ih =>
    rw [freeVariables, Except.bind_ok_iff] at h
    obtain ⟨refs, h1, h⟩ := h
    rw [Except.bind_ok_iff] at h
    obtain ⟨rest, h2, h⟩ := h
    rcases List.mem_cons.1 hx with rfl | hx
    · rw [hc] at h1
      cases h1
      simp only at h
      rw [hr, ok_bind] at h
      cases h
      exact List.mem_cons_self
    · have hm := ih h2 hx
      rcases refs with _ | ⟨d, _ | ⟨d', refs⟩⟩
      · cases h; exact hm
      · rw [Except.bind_ok_iff] at h
        obtain ⟨b, h3, h⟩ := h
        cases b with
        | false => cases h; exact hm
        | true => cases h; exact List.mem_cons_of_mem _ hm
      · cases h; exact hm

/-! ### The result -/

theorem in_result {h : Handler p} {f : ZMod p → Bool} {ix : Indexed p V} (hi : ix.Inv)
    (hw : ix.sys.WF) {solver solver' : Solver p V} {s' : ConstraintSystem p V}
    (hr : removeFree h f ix solver = .ok (s', solver')) :
    ∃ delete : List V, freeVariables f ix ix.sys.vars.eraseDups = .ok delete ∧
      (∀ x ∈ delete, ∃ c, OnlyIn ix.sys x c ∧ RemovableVia f x c) ∧
      (∀ b ∈ ix.sys.bus, ∃ id, b.busId.tryToNumber = some id) ∧
      ∀ c : ConstraintRef p V, c.In ix.sys →
        (c.In s' ↔ ∀ x ∈ delete, ¬ c.Mentions x) := by
  obtain ⟨delete, h1, -, h3, rfl⟩ := removeFree_ok hr
  have hdel : ∀ x ∈ delete, ∃ c, OnlyIn ix.sys x c ∧ RemovableVia f x c := by
    intro x hx
    obtain ⟨hxv, c, hc, hrem⟩ := mem_freeVariables h1 hx
    obtain ⟨i, hi1, hi2⟩ := only_item hi hc
    have hcin : c.In ix.sys := in_iff_refAt.2 ⟨i, hi1⟩
    have hcw : c.WF := refAt_wf hw hi1
    refine ⟨c, onlyIn_iff.2 ⟨i, hi1, ?_, hi2⟩, (removable_iff hcw ?_).1 hrem⟩
    · rw [List.mem_eraseDups] at hxv
      unfold ConstraintSystem.vars at hxv
      rw [List.mem_append, List.mem_flatMap, List.mem_flatMap] at hxv
      rcases hxv with ⟨e, he, hv⟩ | ⟨b, hb, hv⟩
      · obtain ⟨j, hj⟩ := in_iff_refAt.1 (show (ConstraintRef.alg e).In ix.sys from he)
        have hm : (ConstraintRef.alg e).Mentions x := mem_vars_iff_occurs.1 hv
        have := hi2 j _ hj hm
        subst this
        rw [hi1] at hj
        cases hj
        exact hm
      · obtain ⟨j, hj⟩ := in_iff_refAt.1 (show (ConstraintRef.bus b).In ix.sys from hb)
        have hm : (ConstraintRef.bus b).Mentions x := mem_busVars.1 hv
        have := hi2 j _ hj hm
        subst this
        rw [hi1] at hj
        cases hj
        exact hm
    · rintro b rfl
      exact h3 b hcin
  refine ⟨delete, h1, hdel, h3, fun c hc => ?_⟩
  cases c with
  | alg e =>
    show e ∈ ix.sys.algebraic.filter _ ↔ _
    rw [List.mem_filter]
    simp only [List.all_eq_true, decide_eq_true_eq, List.mem_filter, List.mem_eraseDups]
    constructor
    · rintro ⟨-, h⟩ x hx ho
      exact (h x (mem_vars_iff_occurs.2 ho)).2 hx
    · intro h
      refine ⟨hc, fun v hv => ⟨?_, fun hd => h v hd (mem_vars_iff_occurs.1 hv)⟩⟩
      unfold ConstraintSystem.vars
      exact List.mem_append_left _ (List.mem_flatMap.2 ⟨e, hc, hv⟩)
  | bus b =>
    show b ∈ ix.sys.bus.filter _ ↔ _
    rw [List.mem_filter]
    simp only [Bool.or_eq_true, List.all_eq_true, decide_eq_true_eq, List.mem_filter,
      List.mem_eraseDups]
    constructor
    · rintro ⟨-, h⟩ x hx ho
      rcases h with h | h
      · obtain ⟨c, hc1, hc2⟩ := hdel x hx
        obtain ⟨i, hi1, -, hi3⟩ := onlyIn_iff.1 hc1
        obtain ⟨j, hj⟩ := in_iff_refAt.1 hc
        have := hi3 j _ hj ho
        subst this
        rw [hi1] at hj
        cases hj
        obtain ⟨⟨id, h5, h6⟩, -⟩ := hc2
        rw [h5, show (const id : GExpr p V).tryToNumber = some id from rfl] at h
        simp only at h
        rw [h6] at h
        cases h
      · exact (h x (mem_busVars.2 ho)).2 hx
    · intro h
      refine ⟨hc, Or.inr fun v hv => ⟨?_, fun hd => h v hd (mem_busVars.1 hv)⟩⟩
      unfold ConstraintSystem.vars
      exact List.mem_append_right _ (List.mem_flatMap.2 ⟨b, hc, hv⟩)

end FreeExact
end Verif
