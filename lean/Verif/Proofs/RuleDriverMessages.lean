import Verif.Proofs.RuleDriver
import Verif.Proofs.SimplifySystem

/-! # What the rule driver does to the messages, and how to go back -/

set_option linter.unusedSectionVars false

namespace Verif

open RangeConstraint GExpr

variable {p : ℕ} {V : Type} [LinearOrder V] [Fact p.Prime]

/-- What is sent by all interactions. -/
def ConstraintSystem.sent (s : ConstraintSystem p V) (σ : V → ZMod p) :
    List (BusInteraction (ZMod p)) := s.bus.map (BusInteraction.evalAt σ)

theorem messages_of_sent {s s' : ConstraintSystem p V} {σ τ : V → ZMod p}
    (h : s.sent σ = s'.sent τ) (f : ZMod p → Bool) : s.messages f σ = s'.messages f τ := by
  unfold ConstraintSystem.messages
  unfold ConstraintSystem.sent at h
  rw [h]

theorem sent_mapExprs {s : ConstraintSystem p V} {σ τ : V → ZMod p} {f : GExpr p V → GExpr p V}
    (hf : ∀ e, GExpr.WF e → eval σ (f e) = eval τ e) (hs : s.WF) :
    (s.mapExprs f).sent σ = s.sent τ := by
  unfold ConstraintSystem.sent ConstraintSystem.mapExprs
  rw [List.map_map]
  exact List.map_congr_left fun b hb => evalAt_map_of_fields fun e he => hf e (hs.2 b hb e he)

theorem satisfied_mapExprs_of {bus : Bus p} {s : ConstraintSystem p V} {σ τ : V → ZMod p}
    {f : GExpr p V → GExpr p V} (hf : ∀ e, GExpr.WF e → eval σ (f e) = eval τ e) (hs : s.WF)
    (h : (s.mapExprs f).Satisfied bus σ) : s.Satisfied bus τ := by
  refine ⟨fun e he => ?_, fun b hb => ?_⟩
  · rw [← hf e (hs.1 e he)]
    exact h.algebraic _ (List.mem_map.2 ⟨e, he, rfl⟩)
  · rw [← evalAt_map_of_fields (f := f) fun e he => hf e (hs.2 b hb e he)]
    exact h.bus _ (List.mem_map.2 ⟨b, hb, rfl⟩)

theorem sent_batchReplace (s : ConstraintSystem p V) (rs : List (ReplacementAction p V))
    (bound : Option DegreeBound) (σ : V → ZMod p) :
    (batchReplace s rs bound).2.sent σ = s.sent σ := by
  obtain ⟨acc, -, h2, -, h3, -⟩ := batchReplace_spec s rs bound
  unfold ConstraintSystem.sent
  rw [h2]

section

/-- Under the assignments made so far the messages are as before. -/
theorem sent_applyAction {σ : V → ZMod p} {st : DriverState p V} (hw : st.system.WF)
    {a : RuleAction p V} (ha : AssignmentsHold σ (applyAction st a).assignments) :
    (applyAction st a).system.sent σ = st.system.sent σ ∧ AssignmentsHold σ st.assignments := by
  cases a with
  | updateRange v rc =>
    simp only [applyAction] at ha ⊢
    split
    · rename_i hne
      rw [if_pos hne] at ha
      split
      · rename_i val hval
        rw [hval] at ha
        simp only at ha
        rw [assignmentsHold_append, assignmentsHold_single, eval_const] at ha
        exact ⟨sent_mapExprs (eval_substKnown_of_eq ha.2) hw, ha.1⟩
      · rename_i hval
        rw [hval] at ha
        exact ⟨rfl, ha⟩
    · rename_i hne
      rw [if_neg hne] at ha
      exact ⟨rfl, ha⟩
  | substituteByConstant v k =>
    simp only [applyAction] at ha ⊢
    rw [assignmentsHold_append, assignmentsHold_single, eval_const] at ha
    exact ⟨sent_mapExprs (eval_substKnown_of_eq ha.2) hw, ha.1⟩
  | substituteByVariable v w =>
    simp only [applyAction] at ha ⊢
    rw [assignmentsHold_append, assignmentsHold_single, eval_var] at ha
    exact ⟨sent_mapExprs (eval_substVar_of_eq ha.2) hw, ha.1⟩

theorem sent_foldl_applyAction {σ : V → ZMod p} {st : DriverState p V}
    (hw : st.system.WF) {as : List (RuleAction p V)}
    (ha : AssignmentsHold σ (as.foldl applyAction st).assignments) :
    (as.foldl applyAction st).system.sent σ = st.system.sent σ ∧
      AssignmentsHold σ st.assignments := by
  induction as generalizing st with
  | nil => exact ⟨rfl, ha⟩
  | cons a t ih =>
    obtain ⟨h1, h2⟩ := ih (wf_applyAction hw a) ha
    obtain ⟨h3, h4⟩ := sent_applyAction hw h2
    exact ⟨h1.trans h3, h4⟩

variable {ok : RuleInput p V → ConstraintSystem p V → ConstraintSystem p V → Prop}
  {news : List (DerivedVariable p V)}

theorem sent_of_run {rc : V → RangeConstraint p} {h : Handler p} {σ : V → ZMod p}
    {lt : GExpr p V → GExpr p V → Prop} {intBits : ℕ} {bound : Option DegreeBound}
    {st st' : DriverState p V} (hw : st.system.WF)
    (run : DriverRun rc h lt intBits bound ok st st' news) (ha : AssignmentsHold σ st'.assignments) :
    st'.system.sent σ = st.system.sent σ ∧ AssignmentsHold σ st.assignments := by
  induction run with
  | refl => exact ⟨rfl, ha⟩
  | round run new inp hinp hnew actions hactions rs hrs hok ih =>
    obtain ⟨h1, h2⟩ := sent_foldl_applyAction (wf_of_run hw run) ha
    obtain ⟨h3, h4⟩ := ih h2
    exact ⟨(sent_batchReplace _ _ _ _).trans (h1.trans h3), h4⟩

/-! ### Every solution of the result extends to one of the original system -/

/-- `τ` solves `s` like `σ` solves `s'`: only assigned variables and those in `changed` differ, and the
messages are the same. -/
structure ComesFrom (changed : V → Prop) (bus : Bus p) (as : List (V × GExpr p V))
    (s : ConstraintSystem p V) (τ : V → ZMod p) (s' : ConstraintSystem p V) (σ : V → ZMod p) :
    Prop where
  same : ∀ v, v ∉ as.map Prod.fst → ¬ changed v → τ v = σ v
  sat : s.Satisfied bus τ
  sent : s.sent τ = s'.sent σ

variable {changed : V → Prop}

theorem comesFrom_applyAction {bus : Bus p} {σ : V → ZMod p} {st : DriverState p V}
    (hw : st.system.WF) {a : RuleAction p V} (hs : (applyAction st a).system.Satisfied bus σ) :
    ∃ τ, ComesFrom changed bus (applyAction st a).assignments st.system τ (applyAction st a).system σ ∧
      st.assignments <+: (applyAction st a).assignments := by
  have key : ∀ v k, (st.system.mapExprs (substKnown v k)).Satisfied bus σ →
      ∃ τ, ComesFrom changed bus (st.assignments ++ [(v, const k)]) st.system τ
        (st.system.mapExprs (substKnown v k)) σ := fun v k hs =>
    ⟨Function.update σ v k, ⟨fun u hu _ => Function.update_of_ne (by rintro rfl; simp at hu) _ _,
      satisfied_mapExprs_of (fun e he => eval_substKnown σ v k he) hw hs,
      (sent_mapExprs (fun e he => eval_substKnown σ v k he) hw).symm⟩⟩
  cases a with
  | updateRange v rc =>
    simp only [applyAction] at hs ⊢
    split at hs
    · rename_i hne
      rw [if_pos hne]
      split at hs
      · rename_i val hval
        obtain ⟨τ, h⟩ := key v val hs
        exact ⟨τ, h, List.prefix_append _ _⟩
      · rename_i hval
        exact ⟨σ, ⟨fun _ _ _ => rfl, hs, rfl⟩, List.prefix_rfl⟩
    · rename_i hne
      rw [if_neg hne]
      exact ⟨σ, ⟨fun _ _ _ => rfl, hs, rfl⟩, List.prefix_rfl⟩
  | substituteByConstant v k =>
    obtain ⟨τ, h⟩ := key v k hs
    exact ⟨τ, h, List.prefix_append _ _⟩
  | substituteByVariable v w =>
    simp only [applyAction] at hs ⊢
    refine ⟨Function.update σ v (σ w), ⟨fun u hu _ => Function.update_of_ne
      (by rintro rfl; simp at hu) _ _, ?_, ?_⟩, List.prefix_append _ _⟩
    · exact satisfied_mapExprs_of (fun e _ => by rw [eval_subst, eval_var]) hw hs
    · exact (sent_mapExprs (fun e _ => by rw [eval_subst, eval_var]) hw).symm

theorem ComesFrom.trans {bus : Bus p} {as bs : List (V × GExpr p V)}
    {s s' s'' : ConstraintSystem p V} {ρ τ σ : V → ZMod p} (h1 : ComesFrom changed bus as s ρ s' τ)
    (h2 : ComesFrom changed bus bs s' τ s'' σ) (hab : as <+: bs) : ComesFrom changed bus bs s ρ s'' σ :=
  ⟨fun v hv hc => (h1.same v (fun h => hv ((hab.map Prod.fst).subset h)) hc).trans (h2.same v hv hc),
    h1.sat,
    h1.sent.trans h2.sent⟩

theorem comesFrom_foldl {bus : Bus p} {σ : V → ZMod p} {st : DriverState p V}
    (hw : st.system.WF) {as : List (RuleAction p V)}
    (hs : (as.foldl applyAction st).system.Satisfied bus σ) :
    ∃ τ, ComesFrom changed bus (as.foldl applyAction st).assignments st.system τ
      (as.foldl applyAction st).system σ ∧
      st.assignments <+: (as.foldl applyAction st).assignments := by
  induction as generalizing st with
  | nil => exact ⟨σ, ⟨fun _ _ _ => rfl, hs, rfl⟩, List.prefix_rfl⟩
  | cons a t ih =>
    obtain ⟨τ, h1, h2⟩ := ih (wf_applyAction hw a) hs
    obtain ⟨ρ, h3, h4⟩ := comesFrom_applyAction hw h1.sat
    exact ⟨ρ, h3.trans h1 h2, h4.trans h2⟩

theorem comesFrom_run {rc : V → RangeConstraint p} {h : Handler p} {bus : Bus p}
    {lt : GExpr p V → GExpr p V → Prop} {intBits : ℕ} {bound : Option DegreeBound}
    (hok' : ∀ inp a b, ok inp a b → ∀ σ, b.Satisfied bus σ → ∃ τ : V → ZMod p,
      (∀ v, ¬ changed v → τ v = σ v) ∧ a.Satisfied bus τ ∧ a.sent τ = b.sent σ)
    {st st' : DriverState p V} (hw : st.system.WF)
    (run : DriverRun rc h lt intBits bound ok st st' news) {σ : V → ZMod p}
    (hs : st'.system.Satisfied bus σ) :
    ∃ τ, ComesFrom changed bus st'.assignments st.system τ st'.system σ ∧
      st.assignments <+: st'.assignments := by
  induction run generalizing σ with
  | refl => exact ⟨σ, ⟨fun _ _ _ => rfl, hs, rfl⟩, List.prefix_rfl⟩
  | round run new inp hinp hnew actions hactions rs hrs hok ih =>
    have hw' := wf_of_run hw run
    obtain ⟨υ, k1, k2, k3⟩ := hok' _ _ _ hok σ hs
    obtain ⟨τ, h2, h3⟩ := comesFrom_foldl (changed := changed) hw' (satisfied_addDerived.1 k2)
    obtain ⟨ρ, h4, h5⟩ := ih h2.sat
    have h6 := h4.trans h2 h3
    exact ⟨ρ, ⟨fun v hv hc => (h6.same v hv hc).trans (k1 v hc), h6.sat, h6.sent.trans k3⟩,
      h5.trans h3⟩

theorem satisfied_finish {bus : Bus p} {σ : V → ZMod p} {st : DriverState p V} :
    st.finish.system.Satisfied bus σ ↔ st.system.Satisfied bus σ := by
  constructor
  · refine fun h => ⟨fun e he => ?_, h.bus⟩
    by_cases hz : e.isZero = true
    · rw [Splitter.isZero_spec.1 hz]; exact eval_zero σ
    · exact h.algebraic e (List.mem_filter.2 ⟨he, by simpa using hz⟩)
  · exact fun h => ⟨fun e he => h.algebraic e (List.mem_filter.1 he).1, h.bus⟩

end

end Verif
