import Verif.Proofs.SolverVars
import Verif.Proofs.SimplifySystem
import Verif.Props.Solver
import Verif.Spec.SolverVars

/-! # Property C111: the variables and the shape of the solver's assignments -/

namespace Verif

open GExpr

set_option linter.unusedSectionVars false

variable {p : ℕ} [Fact p.Prime] {V : Type} [LinearOrder V]

/-- The variables of the solver that stand for the variables in `A`, and the internal variables. -/
def SVar.Over (A : V → Prop) : SVar V → Prop
  | .original v => A v
  | .boolean _ => True
  | .linearized _ => True

theorem Solver.Scoped.mono {Q Q' : SVar V → Prop} {s : Solver p V} (h : Solver.Scoped Q s)
    (hq : ∀ v, Q v → Q' v) : Solver.Scoped Q' s where
  inv := h.inv
  sys v hv := hq v (h.sys v hv)
  lin x hx := ⟨fun v hv => hq v ((h.lin x hx).1 v hv), fun v hv => hq v ((h.lin x hx).2 v hv)⟩
  ret x hx := by
    obtain ⟨h1, h2⟩ := h.ret x hx
    refine ⟨hq _ h1, ?_⟩
    rcases h2 with h2 | ⟨u, h2, h3⟩
    · exact Or.inl h2
    · exact Or.inr ⟨u, hq u h2, h3⟩

theorem transformExpr_over {A : V → Prop} {e : GExpr p V} (h : ∀ v ∈ vars e, A v) :
    Solver.InScope (SVar.Over A) (transformExpr e) := by
  unfold transformExpr
  obtain ⟨e', he⟩ := transformVars_total (f := SVar.original) e
  rw [he, Option.getD_some]
  intro v hv
  obtain ⟨u, h1, hu⟩ := vars_transformVars he v hv
  cases hu
  exact h u h1

theorem transformVars_const (k : ZMod p) :
    transformVars SVar.tryToOriginal (const k : GExpr p (SVar V)) = some (const k) := rfl

theorem transformVars_var {u : SVar V} {e : GExpr p V}
    (h : transformVars SVar.tryToOriginal (var u) = some e) : ∃ w, u = .original w ∧ e = var w := by
  cases u with
  | original w => exact ⟨w, rfl, by cases h; rfl⟩
  | boolean n => cases h
  | linearized n => cases h

theorem originalAssignments_mem : ∀ {l : List (SVar V × GExpr p (SVar V))} {r : List (V × GExpr p V)},
    originalAssignments l = .ok r → ∀ y ∈ r, ∃ x ∈ l, x.1 = .original y.1 ∧
      transformVars SVar.tryToOriginal x.2 = some y.2 := by
  intro l
  induction l with
  | nil => intro r h y hy; cases h; cases hy
  | cons x t ih =>
    intro r h y hy
    obtain ⟨x, e⟩ := x
    rw [originalAssignments] at h
    split at h
    · rw [Except.bind_ok_iff] at h
      obtain ⟨r', h1, h⟩ := h
      cases h
      rcases List.mem_append.1 hy with hy | hy
      · rw [Option.mem_toList, Option.bind_eq_some_iff] at hy
        obtain ⟨v, hv, hy⟩ := hy
        rw [Option.map_eq_some_iff] at hy
        obtain ⟨e', he, rfl⟩ := hy
        refine ⟨(x, e), by simp, ?_, he⟩
        cases x with
        | original u => simp [SVar.tryToOriginal] at hv; rw [hv]
        | boolean n => simp [SVar.tryToOriginal] at hv
        | linearized n => simp [SVar.tryToOriginal] at hv
      · obtain ⟨z, h2, h3⟩ := ih h1 y hy
        exact ⟨z, by simp [h2], h3⟩
    · cases h

section
variable {bus : Bus p} {h : Handler p} {A : V → Prop} {s s' : Solver p V}

theorem solve_over (hs : h.Sound bus) (hi : Solver.Scoped (SVar.Over A) s) {ch : Choices p V}
    {out : SolverOut p V} (ho : (SolverOp.solve ch).run h s = .ok (out, s')) :
    Solver.Scoped (SVar.Over A) s' ∧ ∃ l, out = .assignments l ∧
      ∀ x ∈ l, A x.1 ∧ SimpleAssignment A x.1 x.2 := by
  rw [SolverOp.run, Except.bind_ok_iff] at ho
  obtain ⟨a, h1, ho⟩ := ho
  rw [Except.bind_ok_iff] at ho
  obtain ⟨l, h2, ho⟩ := ho
  cases ho
  obtain ⟨h3, h4⟩ := Solver.solve_scoped (fun _ => trivial) (fun _ => trivial) hs hi h1
  refine ⟨h3, l, rfl, fun y hy => ?_⟩
  obtain ⟨x, hx, hxy, ht⟩ := originalAssignments_mem h2 y hy
  obtain ⟨h5, h6⟩ := h4 x hx
  rw [hxy] at h5 h6
  refine ⟨h5, ?_⟩
  rcases h6 with ⟨k, hk⟩ | ⟨u, hu, hne, hk⟩
  · rw [hk, transformVars_const] at ht
    exact Or.inl ⟨k, (Option.some.inj ht).symm⟩
  · rw [hk] at ht
    obtain ⟨w, rfl, hw⟩ := transformVars_var ht
    exact Or.inr ⟨w, hu, fun he => hne (by rw [he]), hw⟩

theorem run_over (hs : h.Sound bus) (hi : Solver.Scoped (SVar.Over A) s) {op : SolverOp p V}
    (hw : op.WF) (hm : ∀ v, op.AddsVar v → A v) {out : SolverOut p V}
    (ho : op.run h s = .ok (out, s')) : Solver.Scoped (SVar.Over A) s' := by
  cases op with
  | addAlgebraic es =>
    rw [SolverOp.run, Except.bind_ok_iff] at ho
    obtain ⟨s1, h1, ho⟩ := ho
    cases ho
    refine Solver.addAlgebraic_scoped (fun _ => trivial) (fun _ => trivial) hi (fun e he => ?_) h1
    obtain ⟨e', he', rfl⟩ := List.mem_map.1 he
    exact ⟨transformExpr_wf (hw e' he'), transformExpr_below s e',
      transformExpr_over fun v hv => hm v ⟨e', he', hv⟩⟩
  | addBus bs =>
    rw [SolverOp.run, Except.bind_ok_iff] at ho
    obtain ⟨s1, h1, ho⟩ := ho
    cases ho
    refine Solver.addBus_scoped (fun _ => trivial) (fun _ => trivial) hi (fun b hb e he => ?_) h1
    obtain ⟨b', hb', rfl⟩ := List.mem_map.1 hb
    have : ∃ e' ∈ b'.fields, e = transformExpr e' := by
      simp only [BusInteraction.fields, BusInteraction.map, List.mem_cons, List.mem_map] at he
      rcases he with rfl | rfl | ⟨e', h5, rfl⟩
      · exact ⟨_, by simp [BusInteraction.fields], rfl⟩
      · exact ⟨_, by simp [BusInteraction.fields], rfl⟩
      · exact ⟨e', by simp [BusInteraction.fields, h5], rfl⟩
    obtain ⟨e', he', rfl⟩ := this
    exact ⟨transformExpr_wf (hw b' hb' e' he'), transformExpr_below s e',
      transformExpr_over fun v hv => hm v ⟨b', hb', e', he', hv⟩⟩
  | addRange v r =>
    rw [SolverOp.run, Except.bind_ok_iff] at ho
    obtain ⟨s1, h1, ho⟩ := ho
    cases ho
    unfold Solver.addRange at h1
    rw [Except.bind_ok_iff] at h1
    obtain ⟨a, h2, h1⟩ := h1
    cases h1
    exact Solver.applyRc_scoped (s := { s with cache := [] }) (x := .original v)
      (fun _ => trivial) (fun _ => trivial) hi.clearCache trivial (hm v rfl) h2
  | retain keep =>
    rw [SolverOp.run, Except.bind_ok_iff] at ho
    obtain ⟨s1, h1, ho⟩ := ho
    cases ho
    exact Solver.retain_scoped hi h1
  | solve ch => exact (solve_over hs hi ho).1
  | knownDifferent a b =>
    have h0 := Solver.run_spec hs hi.inv hw
    rw [ho] at h0
    rw [SolverOp.run, Except.bind_ok_iff] at ho
    obtain ⟨r, h1, ho⟩ := ho
    cases ho
    exact hi.same h0.1 (Solver.knownDifferent_scopeSame hi.inv.cs h1)

theorem runOps_over (hs : h.Sound bus) : ∀ {ops : List (SolverOp p V)} {A : V → Prop}
    {s s' : Solver p V} {outs : List (SolverOut p V)}, Solver.Scoped (SVar.Over A) s →
    (∀ op ∈ ops, op.WF) → runOps h ops s = .ok (outs, s') →
    Solver.Scoped (SVar.Over fun v => A v ∨ Told ops v) s' ∧
    ∀ (i : ℕ) (l : List (V × GExpr p V)), outs[i]? = some (.assignments l) → ∀ x ∈ l,
      (A x.1 ∨ Told (ops.take i) x.1) ∧
      SimpleAssignment (fun v => A v ∨ Told (ops.take i) v) x.1 x.2 := by
  intro ops
  induction ops with
  | nil =>
    intro A s s' outs hi _ ho
    cases ho
    refine ⟨hi.mono ?_, by simp⟩
    rintro (v | n | n) hv
    · exact Or.inl hv
    · trivial
    · trivial
  | cons op ops ih =>
    intro A s s' outs hi hw ho
    rw [runOps, Except.bind_ok_iff] at ho
    obtain ⟨⟨out, s1⟩, h1, ho⟩ := ho
    rw [Except.bind_ok_iff] at ho
    obtain ⟨⟨outs', s2⟩, h2, ho⟩ := ho
    cases ho
    have hi' : Solver.Scoped (SVar.Over fun v => A v ∨ op.AddsVar v) s := hi.mono (by
      rintro (v | n | n) hv
      · exact Or.inl hv
      · trivial
      · trivial)
    have h3 := run_over hs hi' (hw op (by simp)) (fun v hv => Or.inr hv) h1
    obtain ⟨h4, h5⟩ := ih h3 (fun o ho => hw o (by simp [ho])) h2
    have hcons : ∀ (ops' : List (SolverOp p V)) (v : V),
        (A v ∨ op.AddsVar v) ∨ Told ops' v → A v ∨ Told (op :: ops') v := by
      rintro ops' v ((hv | hv) | ⟨o, ho, hv⟩)
      · exact Or.inl hv
      · exact Or.inr ⟨op, by simp, hv⟩
      · exact Or.inr ⟨o, by simp [ho], hv⟩
    refine ⟨h4.mono ?_, ?_⟩
    · rintro (v | n | n) hv
      · exact hcons ops v hv
      · trivial
      · trivial
    · intro i l hl x hx
      cases i with
      | zero =>
        have hl : out = .assignments l := by simpa using hl
        cases op with
        | solve ch =>
          obtain ⟨-, l', h6, h7⟩ := solve_over hs hi h1
          rw [hl] at h6
          cases h6
          obtain ⟨h8, h9⟩ := h7 x hx
          refine ⟨Or.inl h8, ?_⟩
          rcases h9 with h9 | ⟨u, h9, h10⟩
          · exact Or.inl h9
          · exact Or.inr ⟨u, Or.inl h9, h10⟩
        | addAlgebraic es =>
          rw [SolverOp.run, Except.bind_ok_iff] at h1
          obtain ⟨_, -, h1⟩ := h1
          cases h1
          cases hl
        | addBus bs =>
          rw [SolverOp.run, Except.bind_ok_iff] at h1
          obtain ⟨_, -, h1⟩ := h1
          cases h1
          cases hl
        | addRange v r =>
          rw [SolverOp.run, Except.bind_ok_iff] at h1
          obtain ⟨_, -, h1⟩ := h1
          cases h1
          cases hl
        | retain keep =>
          rw [SolverOp.run, Except.bind_ok_iff] at h1
          obtain ⟨_, -, h1⟩ := h1
          cases h1
          cases hl
        | knownDifferent a b =>
          rw [SolverOp.run, Except.bind_ok_iff] at h1
          obtain ⟨_, -, h1⟩ := h1
          cases h1
          cases hl
      | succ i =>
        have hl : outs'[i]? = some (.assignments l) := by simpa using hl
        obtain ⟨h6, h7⟩ := h5 i l hl x hx
        rw [List.take_succ_cons]
        refine ⟨hcons _ _ h6, ?_⟩
        rcases h7 with h7 | ⟨u, h7, h8⟩
        · exact Or.inl h7
        · exact Or.inr ⟨u, hcons _ _ h7, h8⟩

theorem scoped_new : Solver.Scoped (SVar.Over fun _ => False) (Solver.new : Solver p V) where
  inv := Solver.inv_new
  sys := by simp [Solver.new, Queued.empty, ConstraintSystem.vars]
  lin := by simp [Solver.new]
  ret := by simp [Solver.new]

end

/-- C111: in every history of calls on a new solver, every assignment returned by a call of `solve`
is for a variable that was in what the caller had added by then, and assigns to it either a number
or a different such variable. In particular no internal variable of the solver ever reaches
the caller. -/
theorem C111_assignments (bus : Bus p) (h : Handler p) (hs : h.Sound bus)
    (ops : List (SolverOp p V)) (hw : ∀ op ∈ ops, op.WF) (outs : List (SolverOut p V))
    (s : Solver p V) (ho : runOps h ops Solver.new = .ok (outs, s))
    (i : ℕ) (l : List (V × GExpr p V)) (hl : outs[i]? = some (.assignments l)) :
    ∀ x ∈ l, Told (ops.take i) x.1 ∧ SimpleAssignment (Told (ops.take i)) x.1 x.2 := by
  intro x hx
  obtain ⟨h1, h2⟩ := (runOps_over hs scoped_new hw ho).2 i l hl x hx
  refine ⟨h1.resolve_left id, ?_⟩
  rcases h2 with h2 | ⟨u, h2, h3⟩
  · exact Or.inl h2
  · exact Or.inr ⟨u, h2.resolve_left id, h3⟩

/-- C111: `solve_system` assigns only to variables of the system, and only numbers and other
variables of the system. -/
theorem C111_solve_system (bus : Bus p) (h : Handler p) (hs : h.Sound bus) (ch : Choices p V)
    (cs : ConstraintSystem p V) (hw : cs.WF) (l : List (V × GExpr p V))
    (ho : solveSystem h ch cs = .ok l) :
    ∀ x ∈ l, x.1 ∈ cs.vars ∧ SimpleAssignment (· ∈ cs.vars) x.1 x.2 := by
  rw [solveSystem_eq, Except.bind_ok_iff] at ho
  obtain ⟨⟨outs, s⟩, h1, ho⟩ := ho
  have hops : ∀ op ∈ [SolverOp.addAlgebraic cs.algebraic, .addBus cs.bus, .solve ch], op.WF := by
    intro op hop
    simp only [List.mem_cons, List.not_mem_nil, or_false] at hop
    rcases hop with rfl | rfl | rfl
    · exact hw.1
    · exact hw.2
    · trivial
  have htold : ∀ v, Told ([SolverOp.addAlgebraic cs.algebraic, .addBus cs.bus, .solve ch].take 2) v →
      v ∈ cs.vars := by
    rintro v ⟨op, hop, hv⟩
    simp only [List.take_succ_cons, List.take_zero, List.mem_cons, List.not_mem_nil, or_false] at hop
    unfold ConstraintSystem.vars busVars
    rcases hop with rfl | rfl
    · obtain ⟨e, he, hv⟩ := hv
      exact List.mem_append.2 (Or.inl (List.mem_flatMap.2 ⟨e, he, hv⟩))
    · obtain ⟨b, hb, e, he, hv⟩ := hv
      exact List.mem_append.2 (Or.inr (List.mem_flatMap.2 ⟨b, hb, List.mem_flatMap.2 ⟨e, he, hv⟩⟩))
  simp only at ho
  split at ho
  · cases ho
    intro x hx
    obtain ⟨h2, h3⟩ := C111_assignments bus h hs _ hops _ s h1 2 l rfl x hx
    refine ⟨htold _ h2, ?_⟩
    rcases h3 with h3 | ⟨u, h3, h4⟩
    · exact Or.inl h3
    · exact Or.inr ⟨u, htold u h3, h4⟩
  · cases ho

/-! ### Concrete instances -/

/-- The history of `Props/Solver.lean`, in which `solve` assigns a variable and two numbers, and
later a number to the variable of a range constraint. -/
example : sampleAnswers (runOps defaultHandler sampleSolverHistory Solver.new) =
    some ([[(3, var 2), (0, const 1), (1, const 3)], [(4, const 9)]], [true]) := by decide +kernel
example : Told (sampleSolverHistory.take 2) 3 := ⟨_, by simp [sampleSolverHistory]; exact Or.inr rfl,
  by simp only [SolverOp.AddsVar]; exact ⟨var 2 - var 3, by simp, by decide +kernel⟩⟩

end Verif
