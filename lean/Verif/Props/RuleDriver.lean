import Verif.Proofs.RuleDriver
import Verif.Proofs.RuleDriverMessages
import Verif.Props.Rules
import Verif.Proofs.Splitter
import Mathlib.Data.Fintype.Basic
import Mathlib.Order.Fin.Basic

/-!
# C30, C57: the rule driver
-/

namespace Verif

open RangeConstraint GExpr

variable {p : ℕ} {V : Type} [LinearOrder V]

/-! ## C30 -/

/-- A batch of replacements, in any order and with any conflicts: some of them are accepted.
The system loses exactly the constraints replaced by an accepted one and gains exactly the
replacements. Every accepted one is within the degree bound and finds all its constraints, no
constraint is replaced twice, and one that is rejected although it is permitted and complete is in
conflict with an accepted one. -/
theorem C30_batch (s : ConstraintSystem p V) (rs : List (ReplacementAction p V))
    (bound : Option DegreeBound) :
    ∃ accepted : List (ReplacementAction p V), accepted.Sublist rs ∧
      (batchReplace s rs bound).2.algebraic =
        (s.algebraic.filter fun c => ∀ a ∈ accepted, c ∉ a.replace) ++
          accepted.flatMap (·.replaceBy) ∧
      (∀ r ∈ accepted, ∀ e ∈ r.replace, e ∈ s.algebraic) ∧
      (∀ r ∈ accepted, r.Permitted bound) ∧
      accepted.Pairwise (fun a b => ∀ e ∈ a.replace, e ∉ b.replace) ∧
      (∀ r ∈ rs, r.replace ≠ [] → (∀ e ∈ r.replace, e ∈ s.algebraic) →
        r.Permitted bound →
        ∃ a ∈ accepted, ∃ e ∈ r.replace, e ∈ a.replace) ∧
      ((batchReplace s rs bound).1 = true ↔ ∃ a ∈ accepted, a.replace ≠ []) := by
  obtain ⟨acc, h1, h2, h3, -, h4, h5, h6⟩ := batchReplace_spec s rs bound
  have hdeg : ∀ r : ReplacementAction p V, r.withinDegreeBound bound = true ↔
      r.Permitted bound := by
    intro r
    clear h2 h3 h4 h6
    cases bound with
    | none =>
      simp only [ReplacementAction.withinDegreeBound, decide_eq_true_eq, not_lt,
        ReplacementAction.Permitted]
      rw [maxDegree_le]
      simp only [le_maxDegree]
    | some b =>
      simp only [ReplacementAction.withinDegreeBound, decide_eq_true_eq, maxDegree_le,
        ReplacementAction.Permitted]
  refine ⟨acc, h1, by rw [h2], fun r hr => (h4 r hr).2, fun r hr => (hdeg r).1 (h4 r hr).1, h5,
    fun r hr hne ha hd => h6 r hr ((hdeg r).2 hd) hne ha, h3⟩

/-- Bus interactions and derived variables are untouched, and if the batch reports no change there
is none. -/
theorem C30_rest_unchanged (s : ConstraintSystem p V) (rs : List (ReplacementAction p V))
    (bound : Option DegreeBound) :
    (batchReplace s rs bound).2.bus = s.bus ∧ (batchReplace s rs bound).2.derived = s.derived ∧
      ((batchReplace s rs bound).1 = false → (batchReplace s rs bound).2 = s) := by
  obtain ⟨acc, -, h2, -, h3, -⟩ := batchReplace_spec s rs bound
  refine ⟨by rw [h2], by rw [h2], fun h => ?_⟩
  rw [h2, h3 h]
  simp

/-- Without a bound the highest degree does not grow. -/
theorem C30_degree_does_not_grow (s : ConstraintSystem p V) (rs : List (ReplacementAction p V))
    (n : ℕ) (hs : ∀ e ∈ s.algebraic, degree e ≤ n) :
    ∀ e ∈ (batchReplace s rs none).2.algebraic, degree e ≤ n := by
  obtain ⟨acc, -, h1, h2, h3, -⟩ := C30_batch s rs none
  intro e he
  rw [h1] at he
  simp only [List.mem_append, List.mem_filter, List.mem_flatMap] at he
  rcases he with he | ⟨r, hr, he⟩
  · exact hs e he.1
  · rcases h3 r hr e he with h | ⟨f, hf, h⟩
    · omega
    · exact h.trans (hs f (h2 r hr f hf))

/-- With a bound all new constraints respect it. -/
theorem C30_degree_within_bound (s : ConstraintSystem p V) (rs : List (ReplacementAction p V))
    (b : DegreeBound) :
    ∀ e ∈ (batchReplace s rs (some b)).2.algebraic, e ∈ s.algebraic ∨ degree e ≤ b.identities := by
  obtain ⟨acc, -, h1, -, h3, -⟩ := C30_batch s rs (some b)
  intro e he
  rw [h1] at he
  simp only [List.mem_append, List.mem_filter, List.mem_flatMap] at he
  rcases he with he | ⟨r, hr, he⟩
  · exact Or.inl he.1
  · exact Or.inr (h3 r hr e he)

/-- If every requested replacement keeps a solution then so does the batch. -/
theorem C30_keeps_solution (bus : Bus p) (s : ConstraintSystem p V)
    (rs : List (ReplacementAction p V)) (bound : Option DegreeBound) (σ : V → ZMod p)
    (h : ∀ r ∈ rs, (∀ e ∈ r.replace, eval σ e = 0) → ∀ e ∈ r.replaceBy, eval σ e = 0)
    (hs : s.Satisfied bus σ) : (batchReplace s rs bound).2.Satisfied bus σ :=
  satisfied_batchReplace h hs

/-- If no requested replacement adds a solution then neither does the batch. -/
theorem C30_adds_no_solution (bus : Bus p) (s : ConstraintSystem p V)
    (rs : List (ReplacementAction p V)) (bound : Option DegreeBound) (σ : V → ZMod p)
    (h : ∀ r ∈ rs, (∀ e ∈ r.replaceBy, eval σ e = 0) → ∀ e ∈ r.replace, eval σ e = 0)
    (hs : (batchReplace s rs bound).2.Satisfied bus σ) : s.Satisfied bus σ :=
  satisfied_of_batchReplace h hs

/-- Three constraints. -/
def batchSample : ConstraintSystem 17 ℕ :=
  ⟨[var 0, var 1, var 2, var 1], [], []⟩

/-- Two replacements in conflict, one with a constraint that does not exist, one whose degree is
too high. -/
def batchRequests : List (ReplacementAction 17 ℕ) :=
  [⟨[var 0, var 7], []⟩, ⟨[var 2], [mul (var 2) (var 2)]⟩,
    ⟨[var 1, var 0, var 1], [add (var 0) (var 1)]⟩, ⟨[var 2, var 1], [var 5]⟩]

example : (batchReplace batchSample batchRequests none).1 = true ∧
    (batchReplace batchSample batchRequests none).2.algebraic = [var 2, add (var 0) (var 1)] ∧
    (batchReplace batchSample batchRequests (some ⟨2, 2⟩)).2.algebraic =
      [mul (var 2) (var 2), add (var 0) (var 1)] := by
  decide +kernel

/-! ## C57 -/

section C57

variable [Fact p.Prime] [Fintype V] {rc : V → RangeConstraint p} {h : Handler p}
  {lt : GExpr p V → GExpr p V → Prop} {intBits : ℕ} {bound : Option DegreeBound}
  {ok : RuleInput p V → ConstraintSystem p V → ConstraintSystem p V → Prop}
  {s : ConstraintSystem p V} {st : DriverState p V} {news : List (DerivedVariable p V)}

/-- A solution within the initial ranges, in which the new variables have the values of their
computation methods, is a solution of the result, satisfies all returned assignments and is within the
ranges collected by the driver. This holds after any number of rounds, for any order of the requested
actions and any batches of requested replacements. The only assumption is that the results of
comparisons are right, which is what C29 shows. -/
theorem C57_keeps_solution (hV : Fintype.card V ≤ p) (hint : 2 * (p - 1) < 2 ^ intBits)
    (hs : s.WF) {bus : Bus p} (hh : h.Sound bus) {σ : V → ZMod p}
    (hrc : ∀ v, (rc v).allowsValue (σ v) = true) (hcmp : ComparisonsRight σ ok)
    (run : DriverRun rc h lt intBits bound ok (driverStart rc s) st news)
    (hnews : ∀ d ∈ news, σ d.column = d.method.value σ)
    (hσ : s.Satisfied bus σ) :
    st.finish.system.Satisfied bus σ ∧ (∀ a ∈ st.finish.assignments, σ a.1 = eval σ a.2) ∧
      ∀ x ∈ st.finish.ranges, x.2.allowsValue (σ x.1) = true := by
  have hstart : (driverStart rc s).Good bus σ := by
    refine ⟨hσ, fun x hx => ?_, by simp [AssignmentsHold, driverStart]⟩
    obtain ⟨v, _, rfl⟩ := List.mem_map.1 (List.mem_filter.1 hx).1
    exact hrc v
  have := good_of_run hV hh hrc hint hcmp (st := driverStart rc s) hs hstart run hnews
  exact ⟨⟨fun e he => this.sat.algebraic e (List.mem_filter.1 he).1, this.sat.bus⟩,
    this.assignments, this.ranges⟩

omit [Fintype V] in
/-- The derived variables of the result have the values of their computation methods if those of the
original system and the new variables do. -/
theorem C57_derived (hs : s.WF) (hd : s.DerivedWF) {σ : V → ZMod p}
    (run : DriverRun rc h lt intBits bound ok (driverStart rc s) st news)
    (hnews : ∀ d ∈ news, σ d.column = d.method.value σ)
    (ha : ∀ a ∈ st.finish.assignments, σ a.1 = eval σ a.2) (hσ : s.Computed σ) :
    st.finish.system.Computed σ := fun d hd' =>
  (derivedGood_of_run (st := driverStart rc s) hs run hnews (fun d h => ⟨hd d h, hσ d h⟩) ha d hd').2

omit [Fintype V] in
/-- A solution of the result that satisfies all returned assignments is a solution of the original
system, if no batch of replacements adds it. -/
theorem C57_adds_no_solution (hs : s.WF) {bus : Bus p} {σ : V → ZMod p}
    (hok : ∀ inp a b, ok inp a b → b.Satisfied bus σ → a.Satisfied bus σ)
    (run : DriverRun rc h lt intBits bound ok (driverStart rc s) st news)
    (hσ : st.finish.system.Satisfied bus σ) (ha : ∀ a ∈ st.finish.assignments, σ a.1 = eval σ a.2) :
    s.Satisfied bus σ :=
  (of_run hok (st := driverStart rc s) hs run (satisfied_finish.1 hσ) ha).1

omit [Fintype V] in
/-- Under the returned assignments, the interactions of the result send the same messages in the same
order. -/
theorem C57_messages (hs : s.WF) {σ : V → ZMod p}
    (run : DriverRun rc h lt intBits bound ok (driverStart rc s) st news)
    (ha : ∀ a ∈ st.finish.assignments, σ a.1 = eval σ a.2) :
    st.finish.system.bus.map (BusInteraction.evalAt σ) = s.bus.map (BusInteraction.evalAt σ) :=
  (sent_of_run (st := driverStart rc s) hs run ha).1

omit [Fintype V] in
/-- If every solution after a batch of replacements comes from one before the batch by changing only
variables in `changed`, with the same messages, then every solution of the result extends to a solution
of the original system by changing only those and assigned variables, and the messages are the same. -/
theorem C57_extends (hs : s.WF) {bus : Bus p} {σ : V → ZMod p} {changed : V → Prop}
    (hok : ∀ inp a b, ok inp a b → ∀ σ, b.Satisfied bus σ → ∃ τ : V → ZMod p,
      (∀ v, ¬ changed v → τ v = σ v) ∧ a.Satisfied bus τ ∧
      a.bus.map (BusInteraction.evalAt τ) = b.bus.map (BusInteraction.evalAt σ))
    (run : DriverRun rc h lt intBits bound ok (driverStart rc s) st news)
    (hσ : st.finish.system.Satisfied bus σ) :
    ∃ τ : V → ZMod p,
      (∀ v, v ∉ st.finish.assignments.map Prod.fst → ¬ changed v → τ v = σ v) ∧
      s.Satisfied bus τ ∧
      s.bus.map (BusInteraction.evalAt τ) = st.finish.system.bus.map (BusInteraction.evalAt σ) := by
  obtain ⟨τ, h1, -⟩ := comesFrom_run hok (st := driverStart rc s) hs run (satisfied_finish.1 hσ)
  exact ⟨τ, h1.same, h1.sat, h1.sent⟩

omit [Fact p.Prime] [Fintype V] in
/-- The variables that the driver declares as occurring once are exactly those that do, counting all
constraints and all fields of the bus interactions. This is what C28 needs. -/
theorem C57_single_occurrence {fresh : V → ComputationMethod p (GExpr p V) → Prop} {inp : RuleInput p V}
    (hi : driverInput rc h lt fresh intBits st = .ok inp) (v : V) :
    v ∈ inp.single ↔ (inp.constraints.flatMap vars ++
      (st.system.bus.flatMap fun b => b.fields).flatMap vars).count v = 1 := by
  rw [driverInput] at hi
  cases hb : busRanges rc h st.system.bus with
  | error x => rw [hb] at hi; cases hi
  | ok r =>
    rw [hb] at hi
    cases hi
    have e : st.system.algebraic.flatMap vars ++
        (st.system.bus.flatMap fun b => b.fields).flatMap vars = st.system.vars := by
      rw [ConstraintSystem.vars, List.flatMap_assoc]
      rfl
    rw [e]
    simp only [singleOccurrence, List.mem_filter, List.mem_dedup, decide_eq_true_eq]
    refine ⟨fun h => h.2, fun h => ⟨?_, h⟩⟩
    exact List.count_pos_iff.1 (by omega)

end C57

/-- `x = 3` and `x * y = 6` -/
def driverSample : ConstraintSystem 17 (Fin 2) :=
  ⟨[mk [] [(0, 1)] (-3), mk [(var 0, var 1)] [] (-6)], [], []⟩

/-- One round replaces `x` by three everywhere, which leaves `3 * y = 6`. -/
theorem driverSample_run : ∃ st, DriverRun (fun _ => unconstrained) defaultHandler (fun _ _ => True)
    32 none (fun _ _ _ => True) (driverStart (fun _ => unconstrained) driverSample) st [] ∧
      st.finish.system.algebraic = [mk [] [(1, 3)] (-6)] ∧
      st.finish.assignments = [(0, const 3)] := by
  refine ⟨_, DriverRun.round (.refl _) [] _ rfl (by simp) [.substituteByConstant 0 3] ?_ []
    (by simp) trivial, by decide +kernel, by decide +kernel⟩
  simp only [List.mem_singleton, forall_eq]
  have e0 : Derives (V := Fin 2) (p := 17) _ (.algebraicConstraint (mk [] [(0, 1)] (-3))) :=
    .initial (inp := {
      constraints := driverSample.algebraic
      exprRanges := []
      varRanges := (driverStart (fun _ => unconstrained) driverSample).ranges
      single := singleOccurrence driverSample
      lt := fun _ _ => True
      fresh := fun w m => (⟨w, m⟩ : DerivedVariable 17 (Fin 2)) ∈ []
      intBits := 32 }) (by simp [driverSample])
  have := Derives.assignment (.zeroConstraint e0)
    (.solvable (.affine (c := 1) (v := 0) (o := -3) (.exprConstraint e0)
      (by decide +kernel)))
  have h3 : (-(-3) * (1 : ZMod 17)⁻¹) = 3 := by decide +kernel
  rw [h3] at this
  exact this

/-- `x * v + y * w - r = 0`, where `x`, `y` and `r` are also sent on a bus. -/
def mergeSample : ConstraintSystem 17 (Fin 10) :=
  ⟨[inverseConstraint], [⟨const 7, const 1, [var 0, var 1, var 2]⟩], []⟩

/-- `x` and `y` are small. -/
def mergeRanges' : Fin 10 → RangeConstraint 17 := fun v =>
  if v = 0 ∨ v = 1 then fromRange 0 3 else unconstrained

/-- The input of the rules. -/
def mergeInput (ranges : List (GExpr 17 (Fin 10) × RangeConstraint 17)) : RuleInput 17 (Fin 10) where
  constraints := mergeSample.algebraic
  exprRanges := groupRanges ranges
  varRanges := (driverStart mergeRanges' mergeSample).ranges
  single := singleOccurrence mergeSample
  lt := fun _ _ => True
  fresh := fun w m => ⟨w, m⟩ ∈ [(⟨9, inverseMethod⟩ : DerivedVariable 17 (Fin 10))]
  intBits := 32

/-- In one round the two variables that occur once are merged into a new variable, which is recorded as
a derived variable. -/
theorem mergeSample_run : ∃ st, DriverRun mergeRanges' defaultHandler (fun _ _ => True)
    32 none (fun _ _ _ => True) (driverStart mergeRanges' mergeSample) st [⟨9, inverseMethod⟩] ∧
      st.finish.system.algebraic = [inverseReplacement] ∧
      st.finish.system.derived = [⟨9, inverseMethod⟩] := by
  obtain ⟨ranges, hr⟩ : ∃ ranges, busRanges mergeRanges' defaultHandler mergeSample.bus =
    .ok ranges := ⟨_, rfl⟩
  have key := inverse_derives (inp := mergeInput ranges) rfl
    (by show singleOccurrence mergeSample = [3, 4]; decide +kernel)
    (by show _ ∈ (driverStart mergeRanges' mergeSample).ranges; decide +kernel)
    (by show _ ∈ (driverStart mergeRanges' mergeSample).ranges; decide +kernel)
    (by simp [mergeInput])
  have hinp : driverInput mergeRanges' defaultHandler (fun _ _ => True)
      (fun w m => ⟨w, m⟩ ∈ [(⟨9, inverseMethod⟩ : DerivedVariable 17 (Fin 10))]) 32
      (driverStart mergeRanges' mergeSample) = .ok (mergeInput ranges) := by
    have hr' : busRanges mergeRanges' defaultHandler
      (driverStart mergeRanges' mergeSample).system.bus = .ok ranges := hr
    simp only [driverInput, hr']
    rfl
  exact ⟨_, DriverRun.round (.refl _) [⟨9, inverseMethod⟩] _ hinp (by simpa using key.1) []
    (by simp) [⟨[inverseConstraint], [inverseReplacement]⟩]
    (by simp only [List.mem_singleton, forall_eq]; exact .one key.2) trivial,
    by decide +kernel, rfl⟩

example : driverSample.WF ∧ Fintype.card (Fin 2) ≤ 17 ∧ 2 * (17 - 1) < 2 ^ 32 ∧
    Handler.Sound (p := 17) (fun _ => True) defaultHandler ∧
    (∀ v, (unconstrained : RangeConstraint 17).allowsValue (![3, 2] v) = true) ∧
    driverSample.Satisfied (fun _ => True) (![3, 2] : Fin 2 → ZMod 17) := by
  refine ⟨⟨?_, by simp [driverSample]⟩, by decide, by decide, ?_, ?_, ⟨?_, by simp [driverSample]⟩⟩
  · intro e he
    simp only [driverSample, List.mem_cons, List.not_mem_nil, or_false] at he
    rcases he with rfl | rfl
    · exact wf_intro (by simp) (by simp) (by simp)
    · refine wf_intro ?_ (by simp) (by simp)
      simp only [List.mem_singleton, forall_eq]
      exact ⟨wf_var _, wf_var _, rfl, rfl⟩
  · intro r r' hr
    cases hr
    exact ⟨rfl, fun b _ h => h⟩
  · intro v; exact (allowsValue_iff _ _).2 (unconstrained_allows _)
  · decide +kernel

end Verif
