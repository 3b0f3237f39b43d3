import Verif.Proofs.SolverFixpointRun
import Verif.Proofs.OptimizerShape
import Verif.Props.Solver

/-!
# Property C99: the solver settles what a single constraint tells
-/

set_option linter.unusedSectionVars false

namespace Verif

open GExpr

variable {p : ℕ} [Fact p.Prime] {V : Type} [LinearOrder V]

/-! ### Substituting the assignments -/

theorem eval_applyAll (l : List (V × GExpr p V)) (σ : V → ZMod p) (e : GExpr p V) :
    eval σ (applyAll l e) = eval (fun v => eval σ (applyAll l (var v))) e := by
  induction l generalizing e with
  | nil =>
    show eval σ e = eval (fun v => eval σ (var v)) e
    refine eval_congr fun v _ => ?_
    rw [eval_var]
  | cons a t ih =>
    show eval σ (applyAll t (GExpr.subst a.1 a.2 e)) =
      eval (fun v => eval σ (applyAll t (GExpr.subst a.1 a.2 (var v)))) e
    rw [ih, eval_subst]
    refine eval_congr fun v _ => ?_
    rw [ih (GExpr.subst a.1 a.2 (var v)), eval_subst, eval_var]

theorem applyAll_const (l : List (V × GExpr p V)) (c : ZMod p) : applyAll l (const c) = const c := by
  induction l with
  | nil => rfl
  | cons a t ih =>
    show applyAll t (GExpr.subst a.1 a.2 (const c)) = const c
    rw [subst_const, ih]

theorem eq_zero_of_isZero {e : GExpr p V} (h : e.isZero = true) : e = const 0 := by
  obtain ⟨q, l, c⟩ := e
  unfold GExpr.isZero at h
  cases q with
  | cons a t => simp [tryToKnown] at h
  | nil =>
    cases l with
    | cons a t => simp [tryToKnown] at h
    | nil =>
      simp only [tryToKnown, decide_eq_true_eq] at h
      rw [h]
      rfl

/-- An assignment of a constant or of a variable. -/
def PlainValue (e : GExpr p V) : Prop := (∃ c, e = const c) ∨ ∃ y, e = var y

theorem subst_var_self (x : V) {r : GExpr p V} (hr : WF r) (ha : r.isAffine = true) :
    GExpr.subst x r (var x) = r := by
  refine affine_ext (wf_subst _ hr (wf_var x)) hr (affine_subst _ ha (affine_var x)) ha fun σ => ?_
  rw [eval_subst, eval_var]
  simp

theorem plainValue_wf {e : GExpr p V} (h : PlainValue e) : WF e ∧ e.isAffine = true := by
  rcases h with ⟨c, rfl⟩ | ⟨y, rfl⟩
  · exact ⟨wf_const c, affine_const c⟩
  · exact ⟨wf_var y, affine_var y⟩

theorem applyAll_plain : ∀ {l : List (V × GExpr p V)} {e : GExpr p V},
    (∀ a ∈ l, PlainValue a.2) → PlainValue e → PlainValue (applyAll l e) := by
  intro l
  induction l with
  | nil => exact fun _ h => h
  | cons a t ih =>
    intro e hl he
    refine ih (e := GExpr.subst a.1 a.2 e) (fun b hb => hl b (by simp [hb])) ?_
    rcases he with ⟨c, rfl⟩ | ⟨y, rfl⟩
    · rw [subst_const]; exact Or.inl ⟨c, rfl⟩
    · by_cases hy : a.1 = y
      · obtain ⟨h1, h2⟩ := plainValue_wf (hl a (by simp))
        rw [← hy, subst_var_self _ h1 h2]
        exact hl a (by simp)
      · rw [subst_of_not_mem]
        · exact Or.inr ⟨y, rfl⟩
        · intro hm
          apply hy
          have : (var y : GExpr p V) = mk [] [(y, 1)] 0 := rfl
          rw [this, mem_vars_mk] at hm
          simpa using hm

theorem originalAssignments_plain : ∀ {L : List (SVar V × GExpr p (SVar V))}
    {l : List (V × GExpr p V)}, (∀ a ∈ L, Solver.Plain a) → originalAssignments L = .ok l →
    ∀ a ∈ l, (∃ c, a.2 = const c) ∨ ∃ y, a.2 = var y ∧ y < a.1 := by
  intro L
  induction L with
  | nil => intro l _ h; cases h; simp
  | cons a t ih =>
    intro l hp h
    obtain ⟨x, r⟩ := a
    rw [originalAssignments] at h
    split at h
    · obtain ⟨l', h1, h2⟩ := stop_bind_ok h
      cases h2
      intro a ha
      rcases List.mem_append.1 ha with ha | ha
      · rw [Option.mem_toList, Option.bind_eq_some_iff] at ha
        obtain ⟨v, hv, ha⟩ := ha
        rw [Option.map_eq_some_iff] at ha
        obtain ⟨e', he, rfl⟩ := ha
        have hx : x = .original v := by
          cases x <;> simp [SVar.tryToOriginal] at hv
          rw [hv]
        subst hx
        rcases hp _ List.mem_cons_self with ⟨c, hc⟩ | ⟨y, hy, hlt⟩
        · simp only at hc
          rw [hc] at he
          cases he
          exact Or.inl ⟨c, rfl⟩
        · simp only at hy hlt
          obtain ⟨w, rfl⟩ := original_of_lt hlt
          rw [hy] at he
          cases he
          refine Or.inr ⟨w, rfl, ?_⟩
          have : (SVar.original w : SVar V).toLex < (SVar.original v : SVar V).toLex := hlt
          simpa [SVar.toLex] using this
      · exact ih (fun b hb => hp b (by simp [hb])) h1 a ha
    · cases h

/-! ### What `solve` has done -/

theorem solve_result {bus : Bus p} {h : Handler p} (hs : h.Sound bus)
    {ops mid : List (SolverOp p V)} {es : List (GExpr p V)} {ch : Choices p V}
    (hw : ∀ op ∈ ops ++ .addAlgebraic es :: (mid ++ [.solve ch]), op.WF)
    (hf : fetched ops = true) (hm : ∀ op ∈ mid, op.Adds) {outs : List (SolverOut p V)}
    {l : List (V × GExpr p V)} {s : Solver p V}
    (ho : runOps h (ops ++ .addAlgebraic es :: (mid ++ [.solve ch])) Solver.new =
      .ok (outs ++ [.assignments l], s)) :
    (∀ a ∈ l, (∃ c, a.2 = const c) ∨ ∃ y, a.2 = var y ∧ y < a.1) ∧
    ∀ e ∈ es, e.isAffine = true → WF (applyAll l e) ∧ (applyAll l e).isAffine = true ∧
      Leftover (applyAll l e) := by
  obtain ⟨o1, s1, o1', h1, h2, h3⟩ := Solver.runOps_append ho
  have hw1 : ∀ op ∈ ops, op.WF := fun op hop => hw op (by simp [hop])
  obtain ⟨i1, st1⟩ := Solver.runOps_settled hs Solver.inv_new Solver.settled_new hw1 h1
  have f1 : s1.toReturn = [] := Solver.runOps_fetched hs (b := true) Solver.inv_new
    (fun _ => rfl) hw1 h1 hf
  rw [runOps] at h2
  obtain ⟨r2, k1, h2⟩ := stop_bind_ok h2
  obtain ⟨r2', h2, h4⟩ := stop_bind_ok h2
  have hwe : (SolverOp.addAlgebraic es).WF := hw _ (by simp)
  have i2 := Solver.run_inv hs i1 hwe k1
  have st2 := Solver.run_settled hs i1 st1 k1
  have f2 : r2.2.toReturn = [] := by
    rcases Solver.run_toReturn hs i1 hwe k1 f1 with h' | ⟨_, _, h'⟩
    · exact h'
    · cases h'
  obtain ⟨o3, s3, o3', h5, h6, h7⟩ := Solver.runOps_append h2
  have hw3 : ∀ op ∈ mid, op.WF := fun op hop => hw op (by simp [hop])
  obtain ⟨i3, st3⟩ := Solver.runOps_settled hs i2 st2 hw3 h5
  obtain ⟨f3, g3⟩ := Solver.runOps_adds hs i2 f2 hw3 hm h5
  rw [runOps] at h6
  obtain ⟨r4, k4, h6⟩ := stop_bind_ok h6
  obtain ⟨r5, k5, h6⟩ := stop_bind_ok h6
  cases k5
  have e6 : o3' = [r4.1] ∧ r2'.2 = r4.2 := by
    simp only [pure, Except.pure, Except.ok.injEq, Prod.mk.injEq] at h6
    exact ⟨h6.1.symm, h6.2.symm⟩
  have e4 : o1' = r2.1 :: r2'.1 ∧ s = r2'.2 := by
    simp only [pure, Except.pure, Except.ok.injEq, Prod.mk.injEq] at h4
    exact ⟨h4.1.symm, h4.2.symm⟩
  have hout : SolverOut.assignments l = r4.1 := by
    simp only at h3
    rw [e4.1, h7, e6.1] at h3
    rw [show o1 ++ r2.1 :: (o3 ++ [r4.1]) = (o1 ++ r2.1 :: o3) ++ [r4.1] by simp] at h3
    have h8 := List.append_inj_right' h3 rfl
    simpa using h8
  rw [SolverOp.run] at k4
  obtain ⟨r6, k6, k7⟩ := stop_bind_ok k4
  obtain ⟨l', k8, k9⟩ := stop_bind_ok k7
  cases k9
  cases hout
  obtain ⟨st4, q4, ⟨L, m1, m2, m3⟩, -⟩ := Solver.solve_settled hs i3 st3 k6
  rw [f3, List.nil_append] at m1
  rw [m1] at k8
  refine ⟨originalAssignments_plain m2 k8, fun e he ha => ?_⟩
  have hwe' : WF e := hwe e he
  obtain ⟨n1, n2, n3⟩ := applyAll_original m2 k8 hwe' ha
  refine ⟨n2, n3, ?_⟩
  obtain ⟨t, k10, k11⟩ := stop_bind_ok k1
  cases k11
  obtain ⟨-, g2⟩ := Solver.addAlgebraic_step i1.cs k10
  by_cases hz : (transformExpr e).isZero = true
  · left
    have : e = const 0 := by
      refine affine_ext hwe' (wf_const 0) ha (affine_const 0) fun σ => ?_
      have hz' : transformExpr e = const 0 := eq_zero_of_isZero hz
      rw [← transformExpr_spec (τ := fun v => match v with | .original v => σ v | _ => 0) hwe'
        (fun _ => rfl), hz', eval_const, eval_const]
    rw [this, applyAll_const]
  · have hmem := g2 _ (List.mem_map_of_mem he) (by simpa using hz) (affine_transformExpr ha)
    obtain ⟨i, hi⟩ := List.mem_iff_getElem?.1 hmem
    have hfin := m3 i _ (g3 i _ hi)
    rcases st4 (.alg i) (.alg (applyAll L (transformExpr e))) (by simp [refAt, hfin]) with h' | h'
    · rw [q4] at h'; cases h'
    · rw [n1] at h'
      exact (leftover_of_stable (transformExpr_wf n2) (affine_transformExpr n3) h').of_transform n2 n3

/-- C99: after every history of calls in which no assignment was left unfetched, add constraints and call `solve`. In
every constraint without products, substitute the assignments that are returned, one after the other. What is left is
zero, or it has at least two variables and does not just equate two variables: everything that such a constraint
determines by itself is returned. -/
theorem C99_affine (bus : Bus p) (h : Handler p) (hs : h.Sound bus)
    (ops mid : List (SolverOp p V)) (es : List (GExpr p V)) (ch : Choices p V)
    (hw : ∀ op ∈ ops ++ .addAlgebraic es :: (mid ++ [.solve ch]), op.WF)
    (hf : fetched ops = true) (hm : ∀ op ∈ mid, op.Adds) (outs : List (SolverOut p V))
    (l : List (V × GExpr p V)) (s : Solver p V)
    (ho : runOps h (ops ++ .addAlgebraic es :: (mid ++ [.solve ch])) Solver.new =
      .ok (outs ++ [.assignments l], s)) (e : GExpr p V) (he : e ∈ es) (ha : e.isAffine = true) :
    Leftover (applyAll l e) :=
  ((solve_result hs hw hf hm ho).2 e he ha).2.2

theorem leftover_const {c : ZMod p} (h : Leftover (const c : GExpr p V)) : c = 0 := by
  rcases h with h | ⟨⟨x, hx, -⟩, -⟩
  · cases h; rfl
  · rw [show (const c : GExpr p V) = mk [] [] c from rfl, mem_vars_mk] at hx
    simp at hx

theorem not_leftover_single {x : V} {a b : ZMod p} (h : Leftover (mk [] [(x, a)] b : GExpr p V)) : False := by
  rcases h with h | ⟨⟨u, hu, v, hv, huv⟩, -⟩
  · cases h
  · rw [mem_vars_mk] at hu hv
    simp at hu hv
    exact huv (hu.trans hv.symm)

theorem wf_single {x : V} {a b : ZMod p} (ha : a ≠ 0) : WF (mk [] [(x, a)] b : GExpr p V) :=
  .mk _ _ _ (by simp) (by simp) (by simp) (by simp) (by simp) (by simp [ha])

/-- C99: a variable that a constraint `a * x + b = 0` determines is resolved to its value by the assignments that
are returned. -/
theorem C99_determined (bus : Bus p) (h : Handler p) (hs : h.Sound bus)
    (ops mid : List (SolverOp p V)) (es : List (GExpr p V)) (ch : Choices p V)
    (hw : ∀ op ∈ ops ++ .addAlgebraic es :: (mid ++ [.solve ch]), op.WF)
    (hf : fetched ops = true) (hm : ∀ op ∈ mid, op.Adds) (outs : List (SolverOut p V))
    (l : List (V × GExpr p V)) (s : Solver p V)
    (ho : runOps h (ops ++ .addAlgebraic es :: (mid ++ [.solve ch])) Solver.new =
      .ok (outs ++ [.assignments l], s)) (e : GExpr p V) (he : e ∈ es) (ha : e.isAffine = true)
    (a b : ZMod p) (x : V) (ha0 : a ≠ 0) (hx : ∀ σ : V → ZMod p, eval σ e = a * σ x + b) :
    applyAll l (var x) = const (-b * a⁻¹) := by
  obtain ⟨h1, h2⟩ := solve_result hs hw hf hm ho
  obtain ⟨h3, h4, h5⟩ := h2 e he ha
  have hp : PlainValue (applyAll l (var x)) := applyAll_plain (fun y hy => by
    rcases h1 y hy with h | ⟨w, h, -⟩
    · exact Or.inl h
    · exact Or.inr ⟨w, h⟩) (Or.inr ⟨x, rfl⟩)
  rcases hp with ⟨k, hk⟩ | ⟨y, hy⟩
  · have : applyAll l e = const (a * k + b) := affine_ext h3 (wf_const _) h4 (affine_const _)
      fun σ => by rw [eval_applyAll, hx, hk, eval_const, eval_const]
    rw [this] at h5
    have h6 := leftover_const h5
    rw [hk]
    congr 1
    have : a * k = -b := by linear_combination h6
    rw [← this, mul_comm a k, mul_assoc, mul_inv_cancel₀ ha0, mul_one]
  · exfalso
    have : applyAll l e = mk [] [(y, a)] b := affine_ext h3 (wf_single ha0) h4 (by rfl)
      fun σ => by rw [eval_applyAll, hx, hy, eval_var, eval_mk]; simp
    rw [this] at h5
    exact not_leftover_single h5

/-- C99: two variables that a constraint `a * (x - y) = 0` equates are resolved to the same by the assignments that
are returned. -/
theorem C99_equated (bus : Bus p) (h : Handler p) (hs : h.Sound bus)
    (ops mid : List (SolverOp p V)) (es : List (GExpr p V)) (ch : Choices p V)
    (hw : ∀ op ∈ ops ++ .addAlgebraic es :: (mid ++ [.solve ch]), op.WF)
    (hf : fetched ops = true) (hm : ∀ op ∈ mid, op.Adds) (outs : List (SolverOut p V))
    (l : List (V × GExpr p V)) (s : Solver p V)
    (ho : runOps h (ops ++ .addAlgebraic es :: (mid ++ [.solve ch])) Solver.new =
      .ok (outs ++ [.assignments l], s)) (e : GExpr p V) (he : e ∈ es) (ha : e.isAffine = true)
    (a : ZMod p) (x y : V) (ha0 : a ≠ 0) (hx : ∀ σ : V → ZMod p, eval σ e = a * (σ x - σ y)) :
    applyAll l (var x) = applyAll l (var y) := by
  obtain ⟨h1, h2⟩ := solve_result hs hw hf hm ho
  obtain ⟨h3, h4, h5⟩ := h2 e he ha
  have hp : ∀ z, PlainValue (applyAll l (var z)) := fun z => applyAll_plain (fun y hy => by
    rcases h1 y hy with h | ⟨w, h, -⟩
    · exact Or.inl h
    · exact Or.inr ⟨w, h⟩) (Or.inr ⟨z, rfl⟩)
  rcases hp x with ⟨k, hk⟩ | ⟨u, hu⟩ <;> rcases hp y with ⟨k', hk'⟩ | ⟨w, hw'⟩
  · have : applyAll l e = const (a * (k - k')) := affine_ext h3 (wf_const _) h4 (affine_const _)
      fun σ => by rw [eval_applyAll, hx, hk, hk', eval_const, eval_const, eval_const]
    rw [this] at h5
    have h6 := leftover_const h5
    rw [hk, hk']
    congr 1
    rcases mul_eq_zero.1 h6 with h7 | h7
    · exact absurd h7 ha0
    · exact sub_eq_zero.1 h7
  · exfalso
    have : applyAll l e = mk [] [(w, -a)] (a * k) := affine_ext h3 (wf_single (neg_ne_zero.2 ha0)) h4
      (by rfl) fun σ => by rw [eval_applyAll, hx, hk, hw', eval_var, eval_const, eval_mk]; simp; ring
    rw [this] at h5
    exact not_leftover_single h5
  · exfalso
    have : applyAll l e = mk [] [(u, a)] (-(a * k')) := affine_ext h3 (wf_single ha0) h4
      (by rfl) fun σ => by rw [eval_applyAll, hx, hk', hu, eval_var, eval_const, eval_mk]; simp; ring
    rw [this] at h5
    exact not_leftover_single h5
  · rw [hu, hw']
    by_contra hne
    have hev : ∀ σ : V → ZMod p, eval σ (applyAll l e) = a * (σ u - σ w) := fun σ => by
      rw [eval_applyAll, hx, hu, hw', eval_var, eval_var]
    have huw : u ≠ w := fun h => hne (by rw [h])
    rcases h5 with h5 | ⟨-, h5⟩
    · have := hev fun v => if v = u then 1 else 0
      rw [h5, eval_const, if_pos rfl, if_neg (Ne.symm huw)] at this
      exact ha0 (by simpa using this.symm)
    · exact h5 ⟨a, u, w, ha0, huw, hev⟩

/-- C99: every assignment that is returned gives a variable the value of a constant or of a smaller variable. -/
theorem C99_assignments (bus : Bus p) (h : Handler p) (hs : h.Sound bus)
    (ops mid : List (SolverOp p V)) (es : List (GExpr p V)) (ch : Choices p V)
    (hw : ∀ op ∈ ops ++ .addAlgebraic es :: (mid ++ [.solve ch]), op.WF)
    (hf : fetched ops = true) (hm : ∀ op ∈ mid, op.Adds) (outs : List (SolverOut p V))
    (l : List (V × GExpr p V)) (s : Solver p V)
    (ho : runOps h (ops ++ .addAlgebraic es :: (mid ++ [.solve ch])) Solver.new =
      .ok (outs ++ [.assignments l], s)) (a : V × GExpr p V) (ha : a ∈ l) :
    (∃ c, a.2 = const c) ∨ ∃ y, a.2 = var y ∧ y < a.1 :=
  (solve_result hs hw hf hm ho).1 a ha

/-- C99: after `solve`, in every history, nothing is left that a single constraint or bus interaction tells: processing
any of them again gives only range constraints that are known, none of them equates two variables, and the exhaustive
search finds nothing. -/
theorem C99_fixpoint (bus : Bus p) (h : Handler p) (hs : h.Sound bus)
    (ops : List (SolverOp p V)) (ch : Choices p V) (hw : ∀ op ∈ ops, op.WF)
    (outs : List (SolverOut p V)) (s : Solver p V)
    (ho : runOps h (ops ++ [.solve ch]) Solver.new = .ok (outs, s)) :
    (∀ e ∈ s.cs.ix.sys.algebraic,
      (¬ ∃ (a : ZMod p) (x y : SVar V), a ≠ 0 ∧ x ≠ y ∧ e.isAffine = true ∧
        ∀ σ : SVar V → ZMod p, eval σ e = a * (σ x - σ y)) ∧
      ∃ r, GExpr.solve s.rcs e = .ok (.ok r) ∧ ∀ eff ∈ r.effects, NoNews s.rcs eff) ∧
    (∀ b ∈ s.cs.ix.sys.bus, ∃ effects, solveBus s.rcs h b = .ok (.ok effects) ∧
      ∀ eff ∈ effects, NoNews s.rcs eff) ∧
    Solver.exhaustiveSearch h s = .ok (false, s) := by
  obtain ⟨o1, s1, o1', h1, h2, h3⟩ := Solver.runOps_append ho
  obtain ⟨i1, st1⟩ := Solver.runOps_settled hs Solver.inv_new Solver.settled_new hw h1
  rw [runOps] at h2
  obtain ⟨r2, k1, h2⟩ := stop_bind_ok h2
  obtain ⟨r3, k2, h2⟩ := stop_bind_ok h2
  cases k2
  cases h2
  have i2 := Solver.run_inv hs i1 (op := .solve ch) trivial k1
  rw [SolverOp.run] at k1
  obtain ⟨r6, k6, k7⟩ := stop_bind_ok k1
  obtain ⟨l', k8, k9⟩ := stop_bind_ok k7
  cases k9
  obtain ⟨st4, q4, -, m4⟩ := Solver.solve_settled hs i1 st1 k6
  refine ⟨fun e he => ?_, fun b hb => ?_, m4 _ rfl rfl⟩
  · obtain ⟨i, hi⟩ := List.mem_iff_getElem?.1 he
    rcases st4 (.alg i) (.alg e) (by simp [refAt, hi]) with h' | h'
    · rw [q4] at h'; cases h'
    · refine ⟨?_, h'.2⟩
      rintro ⟨a, x, y, g1, g2, g3, g4⟩
      rcases leftover_of_stable (i2.wf.1 e he) g3 h' with h5 | ⟨-, h5⟩
      · have := g4 fun v => if v = x then 1 else 0
        rw [h5, eval_const, if_pos rfl, if_neg (Ne.symm g2)] at this
        exact g1 (by simpa using this.symm)
      · exact h5 ⟨a, x, y, g1, g2, g4⟩
  · obtain ⟨i, hi⟩ := List.mem_iff_getElem?.1 hb
    rcases st4 (.bus i) (.bus b) (by simp [refAt, hi]) with h' | h'
    · rw [q4] at h'; cases h'
    · exact h'

/-- C99: a second call of `solve`, with any iteration order, returns no assignment and changes neither what is known
about the range of a variable nor the constraints. -/
theorem C99_again (bus : Bus p) (h : Handler p) (hs : h.Sound bus)
    (ops : List (SolverOp p V)) (ch : Choices p V) (hw : ∀ op ∈ ops, op.WF)
    (outs : List (SolverOut p V)) (s : Solver p V)
    (ho : runOps h (ops ++ [.solve ch]) Solver.new = .ok (outs, s)) (ch' : Choices p V)
    (hf : 0 < ch'.fuel) : ∃ s', (SolverOp.solve ch').run h s = .ok (.assignments [], s') ∧
      (∀ v, s'.get v = s.get v) ∧ s'.rcs = s.rcs ∧ s'.cs = s.cs := by
  obtain ⟨o1, s1, o1', h1, h2, h3⟩ := Solver.runOps_append ho
  obtain ⟨i1, st1⟩ := Solver.runOps_settled hs Solver.inv_new Solver.settled_new hw h1
  rw [runOps] at h2
  obtain ⟨r2, k1, h2⟩ := stop_bind_ok h2
  obtain ⟨r3, k2, h2⟩ := stop_bind_ok h2
  cases k2
  cases h2
  have i2 := Solver.run_inv hs i1 (op := .solve ch) trivial k1
  have f2 : r2.2.toReturn = [] := Solver.solve_toReturn hs i1 k1
  rw [SolverOp.run] at k1
  obtain ⟨r6, k6, k7⟩ := stop_bind_ok k1
  obtain ⟨l', k8, k9⟩ := stop_bind_ok k7
  cases k9
  obtain ⟨st4, q4, -, m4⟩ := Solver.solve_settled hs i1 st1 k6
  obtain ⟨n, hn⟩ : ∃ n, ch'.fuel = n + 1 := ⟨ch'.fuel - 1, by omega⟩
  have hpop : r6.2.cs.popFront = .ok (none, r6.2.cs) := by
    rcases Queued.popFront_ok i2.cs with ⟨-, h⟩ | ⟨x, c, t, -, -, h, -⟩
    · exact h
    · rw [q4] at h; cases h
  have hsearch := m4 { r6.2 with cache := [] } rfl rfl
  rw [SolverOp.run, Solver.solve, hn, Solver.loopUntilNoProgress, hn, Solver.solveInIsolation]
  simp only
  rw [hpop, Solver.liftPanic_ok, Solver.stop_bind]
  simp only [Solver.stop_pure, Solver.stop_bind, Bool.false_eq_true, if_false]
  rw [hsearch]
  simp only [Solver.stop_bind, Bool.false_eq_true, if_false]
  simp only at f2
  rw [f2]
  exact ⟨_, rfl, fun _ => rfl, rfl, rfl⟩

/-- C99: `solve_system` returns everything that the constraints without products determine by themselves. -/
theorem C99_system (bus : Bus p) (h : Handler p) (hs : h.Sound bus) (ch : Choices p V)
    (cs : ConstraintSystem p V) (hw : cs.WF) (l : List (V × GExpr p V))
    (ho : solveSystem h ch cs = .ok l) (e : GExpr p V) (he : e ∈ cs.algebraic)
    (ha : e.isAffine = true) : Leftover (applyAll l e) := by
  rw [solveSystem_eq] at ho
  obtain ⟨⟨outs, s⟩, h1, h2⟩ := stop_bind_ok ho
  simp only at h2
  split at h2
  · rename_i a b l'
    cases h2
    refine C99_affine bus h hs [] [.addBus cs.bus] cs.algebraic ch ?_ rfl (by simp [SolverOp.Adds])
      [a, b] l s h1 e he ha
    intro op hop
    simp only [List.nil_append, List.cons_append, List.mem_cons, List.not_mem_nil, or_false] at hop
    rcases hop with rfl | rfl | rfl
    · exact hw.1
    · exact hw.2
    · trivial
  · cases h2

/-! ### Concrete instances -/

/-- `2 * x0 + 6 = 0` and `x1 = x0`. -/
def fixpointSample : List (SolverOp 17 ℕ) :=
  [.addAlgebraic [scale 2 (var 0) + const 6, var 1 - var 0], .solve (plainChoices 17 ℕ)]

example : sampleAnswers (runOps defaultHandler fixpointSample Solver.new) =
    some ([[(0, const 14), (1, const 14)]], []) := by decide +kernel
example : fetched (fixpointSample.take 0) = true := by decide
example : applyAll [(0, const 14), (1, const 14)] (var 1 - var 0 : GExpr 17 ℕ) = const 0 := by decide +kernel
/-- Assignments that were not fetched: the value of `x0` comes first, then `x1` is replaced by `x0`. -/
example : sampleAnswers (runOps defaultHandler [.addRange 0 (.fromValue 3),
    .addAlgebraic [(var 0 - var 1 : GExpr 17 ℕ)], .solve (plainChoices 17 ℕ)] Solver.new) =
    some ([[(0, const 3), (1, var 0)]], []) := by decide +kernel
example : applyAll [(0, const 3), (1, var 0)] (var 0 - var 1 : GExpr 17 ℕ) = const 3 - var 0 := by
  decide +kernel
example : fetched ([.addRange 0 (.fromValue 3)] : List (SolverOp 17 ℕ)) = false := by decide

end Verif
