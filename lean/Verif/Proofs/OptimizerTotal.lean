import Verif.Spec.OptimizerSteps
import Verif.Proofs.OptimizerShape
import Verif.Props.Termination

/-! The passes of the optimizer do not fail on systems with a solution. -/

set_option linter.unusedSectionVars false

namespace Verif

open GExpr

variable {p : ℕ} {V : Type} [LinearOrder V] [Fact p.Prime]

/-! ### The solver -/

/-- A solver that is true of the assignment and has nothing to return. -/
structure SolverReady (bus : Bus p) (h : Handler p) (σ : V → ZMod p) (s : Solver p V) : Prop where
  made : s.MadeFor bus h fun τ => τ = σ
  ret : s.toReturn = []

variable {bus : Bus p} {h : Handler p} {σ : V → ZMod p}

theorem Solver.MadeFor.knows (hs : h.Sound bus) {A : (V → ZMod p) → Prop} {s : Solver p V}
    (hm : s.MadeFor bus h A) (hσ : A σ) : s.Knows bus σ := by
  obtain ⟨ops, outs, h1, h2, h3⟩ := hm
  have := runOps_spec (V := V) hs Solver.inv_new h1
  rw [h2] at this
  exact (this.2 σ (Solver.knows_new σ) (h3 σ hσ)).1

theorem SolverReady.after (hs : h.Sound bus) {s s' : Solver p V} (hr : SolverReady bus h σ s)
    {op : SolverOp p V} (hw : op.WF) (hh : op.Holds bus σ) (hop : ∀ v r, op ≠ .addRange v r)
    {out : SolverOut p V} (ho : op.run h s = .ok (out, s')) :
    SolverReady bus h σ s' ∧ op.Answer σ out := by
  obtain ⟨h1, h2⟩ := hr.made.run hs hw ho (by rintro _ rfl; exact hh)
  refine ⟨⟨h1, ?_⟩, h2 σ rfl⟩
  rcases Solver.run_toReturn hs (hr.made.inv hs) hw ho hr.ret with h3 | ⟨v, r, h3⟩
  · exact h3
  · exact absurd h3 (hop v r)

theorem SolverReady.run (hs : h.Sound bus) (hn : NoPanic h) {s : Solver p V}
    (hr : SolverReady bus h σ s) {op : SolverOp p V} (hw : op.WF) (hh : op.Holds bus σ)
    (hf : op.run h s ≠ .error .fuel) : ∃ out s', op.run h s = .ok (out, s') := by
  have h1 := Solver.run_spec hs (hr.made.inv hs) hw
  cases h2 : op.run h s with
  | ok r => exact ⟨r.1, r.2, rfl⟩
  | error x =>
    rw [h2] at h1
    cases x with
    | fuel => exact absurd h2 hf
    | panic =>
      obtain ⟨keep, -, h3⟩ := h1 hn
      exact absurd hr.ret h3
    | error e => exact absurd hh (h1 σ (hr.made.knows hs rfl))

theorem SolverReady.other (hs : h.Sound bus) (hn : NoPanic h) {s : Solver p V}
    (hr : SolverReady bus h σ s) {op : SolverOp p V} (hw : op.WF) (hh : op.Holds bus σ)
    (hop : ∀ v r, op ≠ .addRange v r) (hop' : ∀ ch, op ≠ .solve ch) :
    ∃ out s', op.run h s = .ok (out, s') ∧ SolverReady bus h σ s' ∧ op.Answer σ out := by
  obtain ⟨out, s', h1⟩ := hr.run hs hn hw hh (C92_other_calls_end h s op hop')
  exact ⟨out, s', h1, hr.after hs hw hh hop h1⟩

theorem SolverReady.solve (hs : h.Sound bus) (hn : NoPanic h) {s : Solver p V}
    (hr : SolverReady bus h σ s) : ∃ N, ∀ ch : Choices p V, N ≤ ch.fuel →
      ∃ l s', SolverOp.run h s (.solve ch) = .ok (.assignments l, s') ∧ SolverReady bus h σ s' := by
  obtain ⟨ops, outs, h1, h2, h3⟩ := hr.made
  obtain ⟨N, hN⟩ := C92_solve_ends h (fun r r' h => (hs r r' h).1) ops h1 outs s h2
  refine ⟨N, fun ch hch => ?_⟩
  obtain ⟨out, s', h4⟩ := hr.run hs hn (op := .solve ch) trivial trivial (hN ch hch)
  obtain ⟨h5, h6⟩ := hr.after hs (op := .solve ch) trivial trivial (by simp) h4
  cases out with
  | assignments l => exact ⟨l, s', h4, h5⟩
  | unit => exact absurd h6 id
  | different d => exact absurd h6 id

theorem solverReady_new : SolverReady bus h σ (Solver.new : Solver p V) :=
  ⟨⟨[], [], by simp, rfl, by simp⟩, rfl⟩

theorem newSolver_ready (hs : h.Sound bus) (hn : NoPanic h) {s : ConstraintSystem p V} (hw : s.WF)
    (hσ : s.Satisfied bus σ) : ∃ solver, newSolver s = .ok solver ∧ SolverReady bus h σ solver := by
  obtain ⟨o1, s1, h1, r1, -⟩ := solverReady_new.other hs hn (op := .addAlgebraic s.algebraic) hw.1
    hσ.algebraic (by simp) (by simp)
  obtain ⟨o2, s2, h2, r2, -⟩ := r1.other hs hn (op := .addBus s.bus) hw.2 hσ.bus (by simp) (by simp)
  refine ⟨s2, ?_, r2⟩
  simp only [SolverOp.run] at h1 h2
  rw [Except.bind_ok_iff] at h1 h2
  obtain ⟨t1, h1, e1⟩ := h1
  obtain ⟨t2, h2, e2⟩ := h2
  cases e1
  cases e2
  unfold newSolver
  rw [h1]
  exact h2

theorem originalAssignments_affine : ∀ {l : List (SVar V × GExpr p (SVar V))}
    {r : List (V × GExpr p V)}, originalAssignments l = .ok r → ∀ y ∈ r, y.2.isAffine = true := by
  intro l
  induction l with
  | nil => intro r h; cases h; simp
  | cons x t ih =>
    intro r h
    obtain ⟨x, e⟩ := x
    rw [originalAssignments] at h
    split at h
    · rename_i ha
      rw [Except.bind_ok_iff] at h
      obtain ⟨r', h1, h⟩ := h
      cases h
      intro y hy
      rcases List.mem_append.1 hy with hy | hy
      · rw [Option.mem_toList, Option.bind_eq_some_iff] at hy
        obtain ⟨v, -, hy⟩ := hy
        rw [Option.map_eq_some_iff] at hy
        obtain ⟨e', he, rfl⟩ := hy
        obtain ⟨q, li, k⟩ := e
        have hq : q = [] := by simpa [isAffine, isQuadratic, GExpr.quadratic] using ha
        subst hq
        simp only [transformVars, transformVarsQ, bind, Option.bind] at he
        split at he
        · cases he
        · cases he
          rfl
      · exact ih h1 y hy
    · cases h

theorem run_solve_affine {ch : Choices p V} {s s' : Solver p V} {l : List (V × GExpr p V)}
    (ho : SolverOp.run h s (.solve ch) = .ok (.assignments l, s')) : ∀ y ∈ l, y.2.isAffine = true := by
  rw [SolverOp.run, Except.bind_ok_iff] at ho
  obtain ⟨r, -, ho⟩ := ho
  rw [Except.bind_ok_iff] at ho
  obtain ⟨l', h1, ho⟩ := ho
  cases ho
  exact originalAssignments_affine h1

/-! ### The passes -/

theorem solverBased_total (hs : h.Sound bus) (hn : NoPanic h) {solver : Solver p V}
    (hr : SolverReady bus h σ solver) : ∃ N, ∀ ch : Choices p V, N ≤ ch.fuel → ∀ ix : Indexed p V,
      ∃ r, solverBased h ch ix solver = .ok r := by
  obtain ⟨N, hN⟩ := hr.solve hs hn
  refine ⟨N, fun ch hch ix => ?_⟩
  obtain ⟨l, s', h1, -⟩ := hN ch hch
  unfold solverBased
  rw [h1, Solver.stop_bind]
  simp only
  rw [if_neg]
  · exact ⟨_, rfl⟩
  · intro hc
    obtain ⟨x, hx, hx'⟩ := List.any_eq_true.1 hc
    rw [run_solve_affine h1 x hx] at hx'
    cases hx'

theorem solverBased_ready (hs : h.Sound bus) {solver solver' : Solver p V}
    (hr : SolverReady bus h σ solver) {ch : Choices p V} {ix : Indexed p V}
    {s' : ConstraintSystem p V} {l : List (V × GExpr p V)}
    (ho : solverBased h ch ix solver = .ok (s', l, solver')) : SolverReady bus h σ solver' := by
  unfold solverBased at ho
  rw [Except.bind_ok_iff] at ho
  obtain ⟨⟨out, s1⟩, h1, ho⟩ := ho
  have := (hr.after hs (op := .solve ch) trivial trivial (by simp) h1).1
  cases out with
  | unit => cases ho
  | different d => cases ho
  | assignments l =>
    simp only at ho
    split at ho
    · cases ho
    · cases ho
      exact this

theorem canAlwaysBeSatisfied_total (x : V) : ∀ {e : GExpr p V}, WF e →
    ∃ b, canAlwaysBeSatisfied x e = .ok b := by
  intro e
  induction e using canAlwaysBeSatisfied.induct with
  | case1 l r c ih1 ih2 =>
    intro hw
    rw [canAlwaysBeSatisfied]
    obtain ⟨o, ho, -⟩ := trySolveFor_spec hw x
    rw [ho]
    cases o with
    | some _ => exact ⟨true, rfl⟩
    | none =>
      simp only [bind, Except.bind]
      split
      · obtain ⟨b1, h1⟩ := ih1 ((wf_inv hw).1 (l, r) (by simp)).1
        obtain ⟨b2, h2⟩ := ih2 ((wf_inv hw).1 (l, r) (by simp)).2.1
        rw [h1]
        cases b1 with
        | true => exact ⟨true, rfl⟩
        | false => exact ⟨b2, h2⟩
      · exact ⟨false, rfl⟩
  | case2 e hne =>
    intro hw
    obtain ⟨o, ho, -⟩ := trySolveFor_spec hw x
    rw [canAlwaysBeSatisfied]
    · rw [ho]
      cases o with
      | some _ => exact ⟨true, rfl⟩
      | none => exact ⟨false, rfl⟩
    · exact hne

theorem knownBusId_total {b : BusInteraction (GExpr p V)} (h : ∃ i, b.busId = const i) :
    ∃ id, knownBusId b = .ok id := by
  obtain ⟨i, hi⟩ := h
  unfold knownBusId
  rw [hi]
  exact ⟨i, rfl⟩

theorem removableVia_total (f : ZMod p → Bool) (x : V) {c : ConstraintRef p V}
    (hw : ∀ e, c = .alg e → WF e) (hb : ∀ b, c = .bus b → ∃ i, b.busId = const i) :
    ∃ r, removableVia f x c = .ok r := by
  cases c with
  | alg e => exact canAlwaysBeSatisfied_total x (hw e rfl)
  | bus b =>
    obtain ⟨id, h1⟩ := knownBusId_total (hb b rfl)
    simp only [removableVia, h1]
    exact ⟨_, rfl⟩

theorem freeVariables_total (f : ZMod p → Bool) {ix : Indexed p V} (hi : ix.Inv) (hw : ix.sys.WF)
    (hb : ∀ b ∈ ix.sys.bus, ∃ i, b.busId = const i) : ∀ vs : List V,
    ∃ l, freeVariables f ix vs = .ok l := by
  intro vs
  induction vs with
  | nil => exact ⟨[], rfl⟩
  | cons x t ih =>
    obtain ⟨l, hl⟩ := ih
    rw [freeVariables, Indexed.constraintsReferencing_ok hi, hl]
    simp only [bind, Except.bind]
    split
    · rename_i refs c hc
      have hmem : c.In ix.sys := by
        have : c ∈ [c] := List.mem_singleton_self c
        rw [← hc] at this
        exact (mem_refs hi).1 this
      obtain ⟨r, hr⟩ := removableVia_total f x (c := c) (fun e he => hw.1 e (by rw [he] at hmem; exact hmem))
        fun b he => hb b (by rw [he] at hmem; exact hmem)
      rw [hr]
      cases r with
      | true => exact ⟨_, rfl⟩
      | false => exact ⟨_, rfl⟩
    · exact ⟨_, rfl⟩

theorem retainBusKeeping_total (f : ZMod p → Bool) (keep : List V) :
    ∀ {bs : List (BusInteraction (GExpr p V))}, (∀ b ∈ bs, ∃ i, b.busId = const i) →
    ∃ l, retainBusKeeping f keep bs = .ok l := by
  intro bs
  induction bs with
  | nil => exact fun _ => ⟨[], rfl⟩
  | cons b t ih =>
    intro hb
    obtain ⟨id, h1⟩ := knownBusId_total (hb b List.mem_cons_self)
    obtain ⟨l, h2⟩ := ih fun b h => hb b (List.mem_cons_of_mem _ h)
    rw [retainBusKeeping, h1, h2]
    exact ⟨_, rfl⟩

theorem retainBusTouching_total (f : ZMod p → Bool) (keep : List V) :
    ∀ {bs : List (BusInteraction (GExpr p V))}, (∀ b ∈ bs, ∃ i, b.busId = const i) →
    ∃ l, retainBusTouching f keep bs = .ok l := by
  intro bs
  induction bs with
  | nil => exact fun _ => ⟨[], rfl⟩
  | cons b t ih =>
    intro hb
    obtain ⟨id, h1⟩ := knownBusId_total (hb b List.mem_cons_self)
    obtain ⟨l, h2⟩ := ih fun b h => hb b (List.mem_cons_of_mem _ h)
    rw [retainBusTouching, h1, h2]
    exact ⟨_, rfl⟩

theorem statefulVariables_total (f : ZMod p → Bool) :
    ∀ {bs : List (BusInteraction (GExpr p V))}, (∀ b ∈ bs, ∃ i, b.busId = const i) →
    ∃ l, statefulVariables f bs = .ok l := by
  intro bs
  induction bs with
  | nil => exact fun _ => ⟨[], rfl⟩
  | cons b t ih =>
    intro hb
    obtain ⟨id, h1⟩ := knownBusId_total (hb b List.mem_cons_self)
    obtain ⟨l, h2⟩ := ih fun b h => hb b (List.mem_cons_of_mem _ h)
    rw [statefulVariables, h1, h2]
    exact ⟨_, rfl⟩

theorem removeFree_total (hs : h.Sound bus) (hn : NoPanic h) {solver : Solver p V}
    (hr : SolverReady bus h σ solver) (f : ZMod p → Bool) {ix : Indexed p V} (hi : ix.Inv)
    (hw : ix.sys.WF) (hb : ∀ b ∈ ix.sys.bus, ∃ i, b.busId = const i) :
    ∃ r, removeFree h f ix solver = .ok r := by
  obtain ⟨delete, h1⟩ := freeVariables_total f hi hw hb ix.sys.vars.eraseDups
  unfold removeFree
  simp only [h1, liftPanic, Solver.stop_bind]
  obtain ⟨out, s', h2, -⟩ := hr.other hs hn
    (op := .retain (ix.sys.vars.eraseDups.filter fun v => v ∉ delete)) trivial trivial (by simp) (by simp)
  obtain ⟨l, h3⟩ := retainBusKeeping_total f (ix.sys.vars.eraseDups.filter fun v => v ∉ delete) hb
  rw [h2, Solver.stop_bind]
  rw [h3]
  exact ⟨_, rfl⟩

theorem removeFree_ready (hs : h.Sound bus) {solver solver' : Solver p V}
    (hr : SolverReady bus h σ solver) {f : ZMod p → Bool} {ix : Indexed p V} {s' : ConstraintSystem p V}
    (ho : removeFree h f ix solver = .ok (s', solver')) : SolverReady bus h σ solver' := by
  obtain ⟨delete, -, h2, -, -⟩ := removeFree_ok ho
  exact (hr.after hs (op := .retain _) trivial trivial (by simp) h2).1

theorem removeDisconnected_total (hs : h.Sound bus) (hn : NoPanic h) {solver : Solver p V}
    (hr : SolverReady bus h σ solver) (f : ZMod p → Bool) (s : ConstraintSystem p V)
    (hb : ∀ b ∈ s.bus, ∃ i, b.busId = const i) :
    ∃ N, ∀ (ord : SetOrder V) (fuel : ℕ), N ≤ fuel → ∀ ix : Indexed p V, ix.Inv → ix.sys = s →
      ∃ r, removeDisconnected h f ord fuel ix solver = .ok r := by
  obtain ⟨initial, h1⟩ := statefulVariables_total f hb
  refine ⟨(initial ++ systemVars s).length + 1, fun ord fuel hf ix hi hix => ?_⟩
  subst hix
  obtain ⟨o, h2, -, h3⟩ := reachableExceptBlocked_spec ord hi initial [] fuel
  have h4 := h3 (initial ++ systemVars ix.sys) (fun v hv => reachable_bound (fun _ h => h) hv) (by omega)
  unfold removeDisconnected reachable
  rw [h1]
  simp only [liftPanic, Solver.stop_bind]
  rw [h2]
  simp only [Solver.stop_bind]
  cases o with
  | none => exact absurd rfl h4
  | some keep =>
    simp only
    obtain ⟨out, s', h5, -⟩ := hr.other hs hn (op := .retain keep) trivial trivial (by simp) (by simp)
    obtain ⟨l, h6⟩ := retainBusTouching_total f keep hb
    rw [h5, h6]
    exact ⟨_, rfl⟩

theorem removeDisconnected_ready (hs : h.Sound bus) {solver solver' : Solver p V}
    (hr : SolverReady bus h σ solver) {f : ZMod p → Bool} {ord : SetOrder V} {fuel : ℕ}
    {ix : Indexed p V} (hi : ix.Inv) {s' : ConstraintSystem p V}
    (ho : removeDisconnected h f ord fuel ix solver = .ok (s', solver')) :
    SolverReady bus h σ solver' := by
  obtain ⟨keep, -, h2, -, -⟩ := removeDisconnected_ok hi ho
  exact (hr.after hs (op := .retain _) trivial trivial (by simp) h2).1

theorem allSubstitutions_total {ix : Indexed p V} (hi : ix.Inv) {rc : V → RangeConstraint p} :
    ∀ {vss : List (List V)} (acc : List (GExpr p V × GExpr p V)),
    (∀ vs ∈ vss, ∀ v ∈ vs, (rc v).width < 2 ^ 32) → ∃ r, allSubstitutions ix rc vss acc = .ok r := by
  intro vss
  induction vss with
  | nil => exact fun acc _ => ⟨acc, rfl⟩
  | cons vs t ih =>
    intro acc hv
    obtain ⟨as, h1⟩ := allPossibleAssignments_total (hv vs List.mem_cons_self)
    rw [allSubstitutions]
    unfold substitutionsFor
    rw [Indexed.constraintsReferencing_ok hi, h1]
    exact ih _ fun vs h => hv vs (List.mem_cons_of_mem _ h)

theorem simplifyExhaustive_total {ix : Indexed p V} (hi : ix.Inv) (rc : V → RangeConstraint p) :
    ∃ r, simplifyExhaustive ix rc = .ok r := by
  obtain ⟨subs, h1⟩ := allSubstitutions_total hi (rc := rc) (vss := bruteForceCandidates ix.sys rc) []
    fun vs hvs => bruteForceCandidates_width hvs
  unfold simplifyExhaustive
  rw [h1]
  simp only [bind, Except.bind]
  split
  · exact ⟨_, rfl⟩
  · exact ⟨_, rfl⟩

theorem trivialSimplifications_total (f : ZMod p → Bool) {s : ConstraintSystem p V} (hw : s.WF)
    (hσ : s.Satisfied bus σ) : ∃ r, trivialSimplifications f s = .ok r := by
  unfold trivialSimplifications
  simp only
  obtain ⟨s', h1⟩ := C50_redundant_no_panic (removeEqualBus f (removeTrivial s))
    (wf_sublist hw (fun e he => (List.mem_filter.1 he).1)
      (fun x hx => (List.mem_filter.1 ((retainUnseen_sublist f _ _).subset hx)).1) _) (by
    rintro e he c rfl
    have := hσ.algebraic _ (List.mem_filter.1 he).1
    rwa [eval_const] at this)
  rw [h1]
  exact ⟨_, rfl⟩

theorem inline_total {s : ConstraintSystem p V} (hw : s.WF) (bound : DegreeBound) :
    ∃ N, ∀ passes, N ≤ passes → ∀ ix : Indexed p V, ix.Inv → ix.sys = s →
      ∃ r, inlineResult (replaceConstrainedWitnessColumns passes ix (belowDegreeBound bound)) = .ok r := by
  refine ⟨(systemVars s).dedup.length + 1, fun passes hp ix hi hix => ?_⟩
  subst hix
  obtain ⟨o, ho, ho'⟩ := (replace_spec hi hw (belowDegreeBound bound) passes).2 fun x e t ht => by
      rw [belowDegreeBound, Indexed.constraintsReferencing_ok ht]
      exact ⟨_, rfl⟩
  rw [ho]
  cases o with
  | none => exact absurd rfl (ho' (by omega))
  | some r => exact ⟨r, rfl⟩

end Verif
