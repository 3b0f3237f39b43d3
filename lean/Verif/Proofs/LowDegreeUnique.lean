import Verif.Proofs.OptimizerTotalMemory
import Verif.Spec.OptimizerSteps

/-! The functions that the low-degree optimizer tries are different on all domains with at least two
values for every input. -/

set_option linter.unusedSectionVars false

namespace Verif

open RangeConstraint GExpr

variable {p : ℕ} {V : Type} [LinearOrder V] [Fact p.Prime]

theorem retainMatching_sublist {inputs : List (GExpr p V)} {y : ZMod p} :
    ∀ {hyps hyps' : List (LowDegreeFunction p V)}, retainMatching inputs y hyps = .ok hyps' →
      hyps'.Sublist hyps := by
  intro hyps
  induction hyps with
  | nil => intro hyps' h; cases h; exact .slnil
  | cons f t ih =>
    intro hyps' h
    unfold retainMatching at h
    split at h
    · cases h
    · cases ht : retainMatching inputs y t with
      | error x => rw [ht] at h; cases h
      | ok rest =>
        rw [ht] at h
        cases h
        split
        · exact (ih ht).cons_cons _
        · exact (ih ht).cons _

theorem testHypotheses_sublist {h : Handler p} {r : BusInteraction (RangeConstraint p)} {out : ℕ} :
    ∀ {as : List (List (ℕ × ZMod p))} {hyps hyps' : List (LowDegreeFunction p V)},
      testHypotheses h r out as hyps = .ok (some hyps') → hyps'.Sublist hyps := by
  intro as
  induction as with
  | nil => intro hyps hyps' h; cases h; exact .refl _
  | cons a t ih =>
    intro hyps hyps' ho
    rw [testHypotheses] at ho
    cases hc : concreteOutput h r out a with
    | error x => rw [hc] at ho; cases ho
    | ok o =>
      rw [hc] at ho
      cases o with
      | none => cases ho
      | some y =>
        simp only [bind, Except.bind] at ho
        cases hm : retainMatching (a.map fun x => (const x.2 : GExpr p V)) y hyps with
        | error x => rw [hm] at ho; cases ho
        | ok hyps1 =>
          rw [hm] at ho
          simp only at ho
          split at ho
          · cases ho
          · exact (ih ho).trans (retainMatching_sublist hm)

theorem sublist_pair {α : Type} {l : List α} (h : 2 ≤ l.length) : ∃ a b, [a, b].Sublist l := by
  match l, h with
  | a :: b :: t, _ => exact ⟨a, b, ((List.nil_sublist t).cons_cons b).cons_cons a⟩

theorem two_values {l : List (ZMod p)} (hn : l.Nodup) (hne : l ≠ []) (h : ∀ v, l ≠ [v]) :
    ∃ a ∈ l, ∃ b ∈ l, a ≠ b := by
  match l, hn, hne, h with
  | [v], _, _, h => exact absurd rfl (h v)
  | a :: b :: t, hn, _, _ =>
    refine ⟨a, by simp, b, by simp, ?_⟩
    rintro rfl
    simp at hn

theorem pair_sublist_mem {α : Type} {a b : α} {l : List α} (h : [a, b].Sublist l) :
    ∃ i j : ℕ, i < j ∧ l[i]? = some a ∧ l[j]? = some b := by
  induction l with
  | nil => cases h
  | cons x t ih =>
    cases h with
    | cons _ h =>
      obtain ⟨i, j, h1, h2, h3⟩ := ih h
      exact ⟨i + 1, j + 1, by omega, by simpa using h2, by simpa using h3⟩
    | cons_cons _ h =>
      obtain ⟨j, hj⟩ := List.getElem?_of_mem (List.singleton_sublist.1 h)
      exact ⟨0, j + 1, by omega, by simp, by simpa using hj⟩

theorem lt_four {j : ℕ} {α : Type} {a b c d x : α} (h : [a, b, c, d][j]? = some x) : j < 4 := by
  have := (List.getElem?_eq_some_iff.1 h).1
  simpa using this

theorem lt_five {j : ℕ} {α : Type} {a b c d e x : α} (h : [a, b, c, d, e][j]? = some x) : j < 5 := by
  have := (List.getElem?_eq_some_iff.1 h).1
  simpa using this

/-- The functions of one input on constants. -/
def oneValue (a : ZMod p) : List (ZMod p) := [a, 1 - a, 0xff - a, 0xffff - a]

/-- The functions of two inputs on constants. -/
def twoValue (a b : ZMod p) : List (ZMod p) := [a, a + b, a * b, a + b - a * b, a + b - 2 * (a * b)]

theorem oneValue_spec {hyps : List (LowDegreeFunction p V)} (h : lowDegreeHypotheses 1 = .ok hyps)
    (a : ZMod p) {i : ℕ} {f : LowDegreeFunction p V} (hf : hyps[i]? = some f) :
    ∃ v, (oneValue a)[i]? = some v ∧ f [const a] = const v := by
  cases h
  have hi := lt_four hf
  interval_cases i <;> cases hf <;> refine ⟨_, rfl, ?_⟩ <;> simp [inputAt, sub_consts]

theorem twoValue_spec {hyps : List (LowDegreeFunction p V)} (h : lowDegreeHypotheses 2 = .ok hyps)
    (a b : ZMod p) {i : ℕ} {f : LowDegreeFunction p V} (hf : hyps[i]? = some f) :
    ∃ v, (twoValue a b)[i]? = some v ∧ f [const a, const b] = const v := by
  cases h
  have hi := lt_five hf
  interval_cases i <;> cases hf <;> refine ⟨_, rfl, ?_⟩ <;>
    simp [inputAt, sub_consts, add_consts, mul_consts]

/-- One input: two of the functions agree on at most one value. -/
theorem oneValue_differ (hp : 2 ^ 16 < p) {i j : ℕ} (hij : i < j) (hj : j < 4) {a b : ZMod p}
    (hab : a ≠ b) (ha : (oneValue a)[i]? = (oneValue a)[j]?)
    (hb : (oneValue b)[i]? = (oneValue b)[j]?) : False := by
  have cast : ∀ k l : ℕ, k < 2 ^ 16 → l < 2 ^ 16 → k ≠ l → (k : ZMod p) ≠ (l : ZMod p) := by
    intro k l hk hl hne heq
    have := congrArg ZMod.val heq
    rw [ZMod.val_natCast_of_lt (by omega), ZMod.val_natCast_of_lt (by omega)] at this
    exact hne this
  have h2 : (2 : ZMod p) ≠ 0 := by exact_mod_cast cast 2 0 (by norm_num) (by norm_num) (by norm_num)
  have h3 : (1 : ZMod p) ≠ 0xff := by
    exact_mod_cast cast 1 255 (by norm_num) (by norm_num) (by norm_num)
  have h4 : (1 : ZMod p) ≠ 0xffff := by
    exact_mod_cast cast 1 65535 (by norm_num) (by norm_num) (by norm_num)
  have h5 : (0xff : ZMod p) ≠ 0xffff := by
    exact_mod_cast cast 255 65535 (by norm_num) (by norm_num) (by norm_num)
  have key : ∀ k : ZMod p, a = k - a → b = k - b → False := by
    intro k h1 h2'
    have : (2 : ZMod p) * (a - b) = 0 := by linear_combination h1 - h2'
    rcases mul_eq_zero.1 this with h | h
    · exact h2 h
    · exact hab (sub_eq_zero.1 h)
  have diff : ∀ k l x : ZMod p, k ≠ l → k - x = l - x → False := by
    intro k l x hkl h
    exact hkl (sub_left_injective h)
  interval_cases j <;> interval_cases i <;> simp only [oneValue, List.getElem?_cons_zero,
    List.getElem?_cons_succ, Option.some.injEq] at ha hb
  · exact key _ ha hb
  · exact key _ ha hb
  · exact diff _ _ _ h3 ha
  · exact key _ ha hb
  · exact diff _ _ _ h4 ha
  · exact diff _ _ _ h5 ha

/-- Two inputs: two of the functions do not agree on two times two values. -/
theorem twoValue_differ (hp : 2 < p) {i j : ℕ} (hij : i < j) (hj : j < 5) {a a' b b' : ZMod p}
    (haa : a ≠ a') (hbb : b ≠ b')
    (h : ∀ x, x = a ∨ x = a' → ∀ y, y = b ∨ y = b' → (twoValue x y)[i]? = (twoValue x y)[j]?) :
    False := by
  have h2 : (2 : ZMod p) ≠ 0 := by
    intro heq
    have := congrArg ZMod.val (show ((2 : ℕ) : ZMod p) = ((0 : ℕ) : ZMod p) by exact_mod_cast heq)
    rw [ZMod.val_natCast_of_lt hp, ZMod.val_natCast_of_lt (by omega)] at this
    omega
  have p1 := h a (Or.inl rfl) b (Or.inl rfl)
  have p2 := h a (Or.inl rfl) b' (Or.inr rfl)
  have p3 := h a' (Or.inr rfl) b (Or.inl rfl)
  have p4 := h a' (Or.inr rfl) b' (Or.inr rfl)
  have ha : a - a' ≠ 0 := sub_ne_zero.2 haa
  have hb : b - b' ≠ 0 := sub_ne_zero.2 hbb
  have hab : (a - a') * (b - b') ≠ 0 := mul_ne_zero ha hb
  have h2ab : 2 * ((a - a') * (b - b')) ≠ 0 := mul_ne_zero h2 hab
  clear h
  interval_cases j <;> interval_cases i <;> simp only [twoValue, List.getElem?_cons_zero,
    List.getElem?_cons_succ, Option.some.injEq] at p1 p2 p3 p4
  · exact hb (by linear_combination p2 - p1)
  · exact hab (by linear_combination p2 + p3 - p1 - p4)
  · exact hab (by linear_combination p2 + p3 - p1 - p4)
  · exact hab (by linear_combination p1 + p4 - p2 - p3)
  · exact hab (by linear_combination p1 + p4 - p2 - p3)
  · exact h2ab (by linear_combination p1 + p4 - p2 - p3)
  · exact h2ab (by linear_combination p1 + p4 - p2 - p3)
  · exact h2ab (by linear_combination p1 + p4 - p2 - p3)
  · exact hab (by linear_combination a' * (p1 - p2) - a * (p3 - p4))
  · exact hab (by linear_combination p1 + p4 - p2 - p3)

theorem inputValues_one {a : SymbolicField p V} {values : List (List (ℕ × ZMod p))}
    (h : inputValues [a] = .ok values) :
    ∃ l, a.range.allowedValues = some l ∧ values = [l.map fun v => (a.index, v)] := by
  unfold inputValues at h
  split at h
  · cases h
  · rename_i l hl
    cases h
    exact ⟨l, hl, rfl⟩

theorem inputValues_two {a b : SymbolicField p V} {values : List (List (ℕ × ZMod p))}
    (h : inputValues [a, b] = .ok values) :
    ∃ l l', a.range.allowedValues = some l ∧ b.range.allowedValues = some l' ∧
      values = [l.map fun v => (a.index, v), l'.map fun v => (b.index, v)] := by
  unfold inputValues at h
  split at h
  · cases h
  · rename_i l hl
    rw [Except.bind_ok_iff] at h
    obtain ⟨rest, h1, h2⟩ := h
    obtain ⟨l', hl', rfl⟩ := inputValues_one h1
    cases h2
    exact ⟨l, l', hl, hl', rfl⟩

theorem symbolicFunctions_inputs {l : List (SymbolicField p V)} {f : SymbolicFunction p V}
    (hf : f ∈ symbolicFunctions l) : (∃ a ∈ l, f.inputs = [a]) ∨
      ∃ a ∈ l, ∃ b ∈ l, f.inputs = [a, b] := by
  unfold symbolicFunctions at hf
  split at hf
  · simp only [List.mem_cons, List.not_mem_nil, or_false] at hf
    rcases hf with rfl | rfl <;> exact Or.inl ⟨_, by simp, rfl⟩
  · simp only [List.mem_cons, List.not_mem_nil, or_false] at hf
    rcases hf with rfl | rfl | rfl | rfl | rfl | rfl <;> exact Or.inr ⟨_, by simp, _, by simp, rfl⟩
  · cases hf

theorem const_number (k : ZMod p) : (const k : GExpr p V).tryToNumber = some k := by
  simp [const, tryToNumber, tryToKnown]

/-- If more than one function fits, one of the inputs has only one allowed value. -/
theorem ambiguous_input (hp : 2 ^ 16 < p) {h : Handler p} {solver : Solver p V}
    {b : BusInteraction (GExpr p V)} (hamb : AmbiguousFunction h solver b)
    (hsol : ∀ e ∈ b.payload, ∃ v, (solver.rangeConstraintForExpression e).allowsValue v = true) :
    ∃ e ∈ b.payload, e.tryToNumber = none ∧
      ∃ v, (solver.rangeConstraintForExpression e).allowedValues = some [v] := by
  obtain ⟨f, hf, hyps, values, l, h1, h2, h3, h4⟩ := hamb
  by_contra hno
  have two : ∀ a ∈ unknownFields solver b, ∀ la, a.range.allowedValues = some la →
      ∃ v ∈ la, ∃ w ∈ la, v ≠ w := by
    intro a ha la hla
    obtain ⟨x, hx, rfl⟩ := List.mem_map.1 ha
    obtain ⟨hx1, hx2⟩ := List.mem_filter.1 hx
    have hmem : x.1 ∈ b.payload := List.fst_mem_of_mem_zipIdx hx1
    obtain ⟨hnd, hex⟩ := C06_allowedValues_exact _ _ hla
    refine two_values hnd ?_ fun v hv => hno ⟨x.1, hmem, by simpa using hx2, v, by rw [← hv]; exact hla⟩
    rintro rfl
    obtain ⟨v, hv⟩ := hsol _ hmem
    exact List.not_mem_nil ((hex v).2 hv)
  obtain ⟨g1, g2, hg⟩ := sublist_pair h4
  have spec : ∀ x ∈ cartesian values, (g1 (x.map fun y => const y.2)).tryToNumber =
      (g2 (x.map fun y => const y.2)).tryToNumber := by
    intro x hx
    obtain ⟨y1, e1, k1⟩ := (testHypotheses_spec h3 g1 (hg.subset (by simp))).2 x hx
    obtain ⟨y2, e2, k2⟩ := (testHypotheses_spec h3 g2 (hg.subset (by simp))).2 x hx
    rw [e1] at e2
    cases e2
    rw [k1, k2]
  obtain ⟨i, j, hij, hi, hj⟩ := pair_sublist_mem (hg.trans (testHypotheses_sublist h3))
  rcases symbolicFunctions_inputs (List.mem_filter.1 hf).1 with ⟨a, ha, hin⟩ | ⟨a, ha, a', ha', hin⟩
  · rw [hin] at h1 h2
    obtain ⟨la, hla, rfl⟩ := inputValues_one h2
    obtain ⟨v, hv, w, hw, hvw⟩ := two a ha la hla
    have key : ∀ u ∈ la, (oneValue u)[i]? = (oneValue u)[j]? := by
      intro u hu
      have := spec [(a.index, u)] (mem_cartesian.2 (.cons (List.mem_map.2 ⟨u, hu, rfl⟩) .nil))
      obtain ⟨v1, o1, f1⟩ := oneValue_spec h1 u hi
      obtain ⟨v2, o2, f2⟩ := oneValue_spec h1 u hj
      simp only [List.map_cons, List.map_nil, f1, f2, const_number, Option.some.injEq] at this
      rw [o1, o2, this]
    have hj4 : j < 4 := by
      cases h1
      exact lt_four hj
    exact oneValue_differ hp hij hj4 hvw (key v hv) (key w hw)
  · rw [hin] at h1 h2
    obtain ⟨la, lb, hla, hlb, rfl⟩ := inputValues_two h2
    obtain ⟨v, hv, w, hw, hvw⟩ := two a ha la hla
    obtain ⟨v', hv', w', hw', hvw'⟩ := two a' ha' lb hlb
    have key : ∀ u ∈ la, ∀ u' ∈ lb, (twoValue u u')[i]? = (twoValue u u')[j]? := by
      intro u hu u' hu'
      have := spec [(a.index, u), (a'.index, u')] (mem_cartesian.2 (.cons (List.mem_map.2 ⟨u, hu, rfl⟩)
        (.cons (List.mem_map.2 ⟨u', hu', rfl⟩) .nil)))
      obtain ⟨v1, o1, f1⟩ := twoValue_spec h1 u u' hi
      obtain ⟨v2, o2, f2⟩ := twoValue_spec h1 u u' hj
      simp only [List.map_cons, List.map_nil, f1, f2, const_number, Option.some.injEq] at this
      rw [o1, o2, this]
    have hj5 : j < 5 := by
      cases h1
      exact lt_five hj
    refine twoValue_differ (by omega) hij hj5 hvw hvw' ?_
    rintro x (rfl | rfl) y (rfl | rfl)
    · exact key _ hv _ hv'
    · exact key _ hv _ hw'
    · exact key _ hw _ hv'
    · exact key _ hw _ hw'

end Verif
