import Verif.Proofs.RangeExact
import Verif.Proofs.SolverFixpointRun
import Verif.Proofs.TerminationSplit
import Verif.Props.RangeConstraint
import Verif.Props.Solve
import Verif.Spec.Supported

/-!
# Solving an affine constraint for each of its variables
-/

set_option linter.unusedSectionVars false

namespace Verif

open GExpr RangeConstraint Spec

variable {p : ℕ} [Fact p.Prime] {V : Type} [LinearOrder V]

theorem lookup_of_mem {l : List (V × ZMod p)} (hl : l.Pairwise fun e f => e.1 < f.1) {x : V} {k : ZMod p}
    (h : (x, k) ∈ l) : Linear.lookup x l = some k := by
  induction l with
  | nil => cases h
  | cons a t ih =>
    obtain ⟨w, d⟩ := a
    rw [List.pairwise_cons] at hl
    rw [Linear.lookup]
    rcases List.mem_cons.1 h with h | h
    · cases h; simp
    · have hne : w ≠ x := ne_of_lt (hl.1 _ h)
      simp [hne.symm, ih hl.2 h]

/-- The terms of the other variables, divided by `-k`. -/
def restTerms (x : V) (k : ZMod p) (l : List (V × ZMod p)) : List (V × ZMod p) :=
  (l.filter fun e => e.1 ≠ x).map fun e => (e.1, -k⁻¹ * e.2)

theorem sum_rest {l : List (V × ZMod p)} (hl : l.Pairwise fun e f => e.1 < f.1) {x : V} {k : ZMod p}
    (h : (x, k) ∈ l) (σ : V → ZMod p) :
    (l.map fun e => e.2 * σ e.1).sum = k * σ x + ((l.filter fun e => e.1 ≠ x).map fun e => e.2 * σ e.1).sum := by
  induction l with
  | nil => cases h
  | cons a t ih =>
    obtain ⟨w, d⟩ := a
    rw [List.pairwise_cons] at hl
    rcases List.mem_cons.1 h with h | h
    · cases h
      have : (t.filter fun e => e.1 ≠ x) = t := by
        rw [List.filter_eq_self]
        intro e he
        simpa using (ne_of_lt (hl.1 e he)).symm
      rw [List.filter_cons_of_neg (by simp), this]
      simp
    · have hne : w ≠ x := ne_of_lt (hl.1 _ h)
      rw [List.filter_cons_of_pos (by simpa using hne)]
      simp only [List.map_cons, List.sum_cons]
      rw [ih hl.2 h]
      ring

theorem restTerms_sum (x : V) (k : ZMod p) (l : List (V × ZMod p)) (σ : V → ZMod p) :
    ((restTerms x k l).map fun e => e.2 * σ e.1).sum =
      -k⁻¹ * ((l.filter fun e => e.1 ≠ x).map fun e => e.2 * σ e.1).sum := by
  unfold restTerms
  induction (l.filter fun e => e.1 ≠ x) with
  | nil => simp
  | cons a t ih =>
    simp only [List.map_cons, List.sum_cons]
    rw [ih]
    ring

theorem wf_rest {l : List (V × ZMod p)} {c : ZMod p} (hw : WF (mk [] l c)) {x : V} {k : ZMod p}
    (h : (x, k) ∈ l) : WF (mk [] (restTerms x k l) (-k⁻¹ * c) : GExpr p V) := by
  obtain ⟨-, h2, h3⟩ := wf_inv hw
  have hk : k ≠ 0 := h3 _ h
  refine .mk _ _ _ (by simp) (by simp) (by simp) (by simp) ?_ ?_
  · unfold restTerms
    rw [List.pairwise_map]
    exact h2.filter _
  · intro e he
    unfold restTerms at he
    rw [List.mem_map] at he
    obtain ⟨d, hd, rfl⟩ := he
    have := h3 d (List.mem_of_mem_filter hd)
    simp [hk, this]

/-- An affine constraint can be solved for each of its variables. -/
theorem trySolveFor_affine {l : List (V × ZMod p)} {c : ZMod p} (hw : WF (mk [] l c)) {x : V} {k : ZMod p}
    (h : (x, k) ∈ l) :
    trySolveFor (mk [] l c) x = .ok (some (mk [] (restTerms x k l) (-k⁻¹ * c))) := by
  obtain ⟨-, h2, h3⟩ := wf_inv hw
  have hk : k ≠ 0 := h3 _ h
  have hsub : ∀ σ : V → ZMod p, eval σ (mk [] l c - scale k (var x)) = eval σ (mk [] l c) - k * σ x := by
    intro σ
    rw [← eval_var σ x, ← eval_scale]; exact eval_sub σ _ _
  have hwf : WF (mk [] l c - scale k (var x)) := wf_sub hw (wf_scale _ (wf_var x))
  have haf : (mk [] l c - scale k (var x)).isAffine = true := Splitter.affine_sub rfl (affine_scale _ (affine_var x))
  have hx : x ∉ (mk [] l c - scale k (var x)).vars := by
    intro hx
    generalize hd : mk [] l c - scale k (var x) = d at *
    obtain ⟨q', l', c'⟩ := d
    have hq : q' = [] := isAffine_iff.1 haf
    subst hq
    rw [mem_vars_mk] at hx
    rcases hx with hx | hx
    · simp at hx
    · obtain ⟨k', hk'⟩ : ∃ k', (x, k') ∈ l' := by
        simpa using hx
      obtain ⟨g1, g2⟩ := (affine_mem_iff hwf x k').1 hk'
      obtain ⟨-, g3⟩ := (affine_mem_iff hw x k).1 h
      rw [hsub, hsub] at g2
      apply g1
      rw [← g2, ← g3]
      simp
  unfold trySolveFor
  have hl : coefficientOf (mk [] l c) x = some k := lookup_of_mem h2 h
  rw [hl]
  simp only [if_neg hk, if_neg hx]
  congr 2
  refine affine_ext (wf_scale _ hwf) (wf_rest hw h) (affine_scale _ haf) rfl fun σ => ?_
  rw [eval_scale, hsub, eval_mk, eval_mk, restTerms_sum, sum_rest h2 h σ]
  simp
  ring

theorem eval_zero_iff_rest {l : List (V × ZMod p)} {c : ZMod p} (hw : WF (mk [] l c)) {x : V} {k : ZMod p}
    (h : (x, k) ∈ l) (σ : V → ZMod p) :
    eval σ (mk [] l c) = 0 ↔ ((restTerms x k l).map fun e => e.2 * σ e.1).sum + -k⁻¹ * c = σ x := by
  obtain ⟨-, h2, h3⟩ := wf_inv hw
  have hk : k ≠ 0 := h3 _ h
  rw [eval_mk, restTerms_sum, sum_rest h2 h σ]
  simp only [List.map_nil, List.sum_nil, zero_add]
  generalize ((l.filter fun e => e.1 ≠ x).map fun e => e.2 * σ e.1).sum = s
  constructor
  · intro h0
    have : s = -(k * σ x) - c := by linear_combination h0
    rw [this]
    field_simp
    ring
  · intro h0
    rw [← h0]
    field_simp
    ring

/-- The range of the rest is exactly the set of supported values. -/
theorem supported_iff {rc : V → RangeConstraint p} {l : List (V × ZMod p)} {c a : ZMod p} (hw : WF (mk [] l c))
    (ha : ∀ e ∈ l, e.2 = a ∨ e.2 = -a) {x : V} {k : ZMod p} (h : (x, k) ∈ l) (v : ZMod p) :
    InCyc (rangeConstraint rc (mk [] (restTerms x k l) (-k⁻¹ * c))).min
      (rangeConstraint rc (mk [] (restTerms x k l) (-k⁻¹ * c))).max v ↔ Supported rc (mk [] l c) x v := by
  obtain ⟨-, h2, h3⟩ := wf_inv hw
  have hk : k ≠ 0 := h3 _ h
  have hr := wf_rest hw h
  obtain ⟨-, r2, -⟩ := wf_inv hr
  have hnd : ((restTerms x k l).map (·.1)).Nodup :=
    List.pairwise_map.2 (r2.imp fun h => ne_of_lt h)
  have hne : ∀ e ∈ restTerms x k l, e.1 ≠ x := by
    intro e he
    unfold restTerms at he
    rw [List.mem_map] at he
    obtain ⟨d, hd, rfl⟩ := he
    simpa using (List.mem_filter.1 hd).2
  have hunit : ∀ e ∈ restTerms x k l, e.2 = 1 ∨ e.2 = -1 := by
    intro e he
    unfold restTerms at he
    rw [List.mem_map] at he
    obtain ⟨d, hd, rfl⟩ := he
    simp only
    rcases ha _ h with hka | hka <;> rcases ha d (List.mem_of_mem_filter hd) with hda | hda <;>
      simp only at hka <;> rw [hda, hka] <;> rw [hka] at hk <;> have hk' : a ≠ 0 := by
        intro h0; rw [h0] at hk; simp at hk
    · right; field_simp
    · left; field_simp
    · left; field_simp
    · right; field_simp
  have hcongr : ∀ (σ : V → ZMod p) (u : ZMod p),
      ((restTerms x k l).map fun e => e.2 * Function.update σ x u e.1) =
        (restTerms x k l).map fun e => e.2 * σ e.1 := by
    intro σ u
    apply List.map_congr_left
    intro e he
    rw [Function.update_of_ne (hne e he)]
  rw [expression_exact rc _ _ hnd hunit v]
  unfold Supported
  simp only [← inCyc_iff_between]
  constructor
  · rintro ⟨σ, h1, h4⟩
    refine ⟨Function.update σ x v, Function.update_self .., ?_, ?_⟩
    · rw [eval_zero_iff_rest hw h, hcongr, Function.update_self]
      exact h4
    · intro w hw'
      rw [Function.update_of_ne hw']
      exact h1 w
  · rintro ⟨σ, rfl, h1, h4⟩
    refine ⟨Function.update σ x (rc x).min, ?_, ?_⟩
    · intro w
      by_cases hwx : w = x
      · subst hwx
        rw [Function.update_self]
        exact inCyc_left _ _
      · rw [Function.update_of_ne hwx]
        exact h4 w hwx
    · rw [hcongr]
      exact (eval_zero_iff_rest hw h σ).1 h1

theorem transferLoop_spec {rc : V → RangeConstraint p} {l : List (V × ZMod p)} {c : ZMod p}
    (hw : WF (mk [] l c)) : ∀ (t : List (V × ZMod p)), (∀ e ∈ t, e ∈ l) → (t.map (·.1)).Nodup →
    ∃ effects, transferLoop rc (mk [] l c) t = .ok effects ∧
      (∀ eff ∈ effects, ∃ x k, (x, k) ∈ t ∧
        (rangeConstraint rc (mk [] (restTerms x k l) (-k⁻¹ * c))).isUnconstrained = false ∧
        eff = .rangeConstraint x (rangeConstraint rc (mk [] (restTerms x k l) (-k⁻¹ * c)))) ∧
      ∀ x k, (x, k) ∈ t →
        (rangeConstraint rc (mk [] (restTerms x k l) (-k⁻¹ * c))).isUnconstrained = false →
        .rangeConstraint x (rangeConstraint rc (mk [] (restTerms x k l) (-k⁻¹ * c))) ∈ effects
  | [], _, _ => ⟨[], rfl, by simp, by simp⟩
  | (x, k) :: t, ht, hn => by
    rw [List.map_cons, List.nodup_cons] at hn
    obtain ⟨effects, h1, h2, h3⟩ := transferLoop_spec hw t (fun e he => ht e (List.mem_cons_of_mem _ he)) hn.2
    rw [transferLoop, trySolveFor_affine hw (ht _ List.mem_cons_self), h1]
    simp only
    cases hu : (rangeConstraint rc (mk [] (restTerms x k l) (-k⁻¹ * c))).isUnconstrained with
    | true =>
      refine ⟨effects, rfl, ?_, ?_⟩
      · intro eff heff
        obtain ⟨y, d, g1, g2⟩ := h2 eff heff
        exact ⟨y, d, List.mem_cons_of_mem _ g1, g2⟩
      · intro y d hy hu'
        rcases List.mem_cons.1 hy with hy | hy
        · cases hy; rw [hu] at hu'; cases hu'
        · exact h3 y d hy hu'
    | false =>
      refine ⟨_, rfl, ?_, ?_⟩
      · intro eff heff
        rcases List.mem_cons.1 heff with heff | heff
        · exact ⟨x, k, List.mem_cons_self, hu, heff⟩
        · obtain ⟨y, d, g1, g2⟩ := h2 eff heff
          exact ⟨y, d, List.mem_cons_of_mem _ g1, g2⟩
      · intro y d hy hu'
        rcases List.mem_cons.1 hy with hy | hy
        · cases hy; exact List.mem_cons_self
        · exact List.mem_cons_of_mem _ (h3 y d hy hu')

end Verif
