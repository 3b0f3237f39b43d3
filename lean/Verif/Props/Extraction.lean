import Verif.Proofs.BooleanExtractor
import Verif.Proofs.Linearizer
import Verif.Proofs.SolverBase
import Verif.Spec.Linearizer
import Verif.Props.Solve

/-! # Properties C18 and C19: Boolean extraction and linearization -/

namespace Verif

open GExpr

set_option linter.unusedSectionVars false

variable {p : ℕ} [Fact p.Prime] {V : Type} [LinearOrder V]

/-! ## C18 -/

/-- C18: without a new variable, the constraint is replaced by an equivalent one. -/
theorem C18_no_new_variable (subs subs' : BooleanSubs p V) (e c : GExpr p V) (z : V) (hw : WF e)
    (h : tryExtractBoolean subs e z = some (⟨c, none⟩, subs')) (σ : V → ZMod p) :
    eval σ e = 0 ↔ eval σ c = 0 :=
  (tryExtractBoolean_spec hw h).plain rfl σ

/-- C18: with a new variable, the solutions of the constraint are those assignments for which
there is a Boolean value of the new variable that satisfies the new constraint. -/
theorem C18_boolean_variable (subs subs' : BooleanSubs p V) (e c : GExpr p V) (z z' : V)
    (hw : WF e) (hz : ¬ Occurs z e)
    (h : tryExtractBoolean subs e z = some (⟨c, some z'⟩, subs')) (σ : V → ZMod p) :
    z' = z ∧ (eval σ e = 0 ↔
      ∃ b : ZMod p, (b = 0 ∨ b = 1) ∧ eval (Function.update σ z b) c = 0) := by
  have g := tryExtractBoolean_spec hw h
  rcases g.newVar with h1 | h1
  · cases h1
  · simp only [Option.some.injEq] at h1
    subst h1
    exact ⟨rfl, g.boolean rfl (fun h => hz (mem_vars_iff_occurs.1 h)) σ⟩

/-- C18: the value of the new variable is determined by the others. -/
theorem C18_boolean_unique (subs subs' : BooleanSubs p V) (e c : GExpr p V) (z : V)
    (hw : WF e) (hz : ¬ Occurs z e)
    (h : tryExtractBoolean subs e z = some (⟨c, some z⟩, subs')) (σ : V → ZMod p) (b b' : ZMod p)
    (hb : eval (Function.update σ z b) c = 0) (hb' : eval (Function.update σ z b') c = 0) :
    b = b' :=
  (tryExtractBoolean_spec hw h).unique rfl (fun h => hz (mem_vars_iff_occurs.1 h)) σ b b' hb hb'

/-- C18: the new constraint is well-formed and has no other variables. -/
theorem C18_variables (subs subs' : BooleanSubs p V) (e c : GExpr p V) (z : V) (nv : Option V)
    (hw : WF e) (h : tryExtractBoolean subs e z = some (⟨c, nv⟩, subs')) :
    WF c ∧ ∀ v, Occurs v c → Occurs v e ∨ nv = some v := by
  have g := tryExtractBoolean_spec hw h
  refine ⟨g.wf, fun v hv => ?_⟩
  rw [← mem_vars_iff_occurs]
  exact g.vars v (mem_vars_iff_occurs.2 hv)

/-- `(x0 + x1 - 3) * (x0 + x1 - 5) = 0`. -/
def sampleExtract : GExpr 17 ℕ :=
  (var 0 + var 1 - const 3) * (var 0 + var 1 - const 5)

theorem sampleExtract_wf : WF sampleExtract :=
  wf_mul (wf_sub (wf_add (wf_var 0) (wf_var 1)) (wf_const 3))
    (wf_sub (wf_add (wf_var 0) (wf_var 1)) (wf_const 5))

example : (tryExtractBoolean [] sampleExtract 9).map (fun x => (x.1.constraint, x.1.newVar)) =
    some (-(var 0 + var 1 - const 3) + scale 2 (var 9), some 9) := by
  decide +kernel
example : ¬ Occurs 9 sampleExtract := by rw [← mem_vars_iff_occurs]; decide +kernel
-- The same constraint is not extracted twice, and a Boolean constraint is left alone.
example : ((tryExtractBoolean [] sampleExtract 9).bind fun x =>
    tryExtractBoolean x.2 sampleExtract 10).isNone = true := by decide +kernel
example : (tryExtractBoolean [] (var 0 * (var 0 - const 1) : GExpr 17 ℕ) 9).isNone = true := by
  decide +kernel
-- A square has no new variable.
example : (tryExtractBoolean [] ((var 0 - const 2) * scale 2 (var 0 - const 2) : GExpr 17 ℕ) 9).map
    (fun x => (x.1.constraint, x.1.newVar)) = some (scale 2 (var 0 - const 2), none) := by
  decide +kernel

/-! ## C19 -/

theorem linearizeAll_spec {fresh : ℕ → V} {B : ℕ → V → Prop} (hB : Dispenses fresh B) (es : List (GExpr p V)) :
    ∀ {st : LinState p V}, st.Inv B → (∀ e ∈ es, WF e) → (∀ e ∈ es, Below B st.next e) →
      LinExt fresh B st (linearizeAll fresh es st).2 ∧
      List.Forall₂ (fun e r => LinOut B e r (linearizeAll fresh es st).2) es
        (linearizeAll fresh es st).1 := by
  induction es with
  | nil => exact fun hi _ _ => ⟨.refl hi, .nil⟩
  | cons e t ih =>
    intro st hi hw hb
    simp only [linearizeAll]
    obtain ⟨x1, o1⟩ := linearizeExpression_spec hB e hi (hw e (by simp)) (hb e (by simp))
    obtain ⟨x2, o2⟩ := ih x1.inv (fun e he => hw e (by simp [he]))
      (fun e he => (hb e (by simp [he])).mono hB x1.le)
    exact ⟨x1.trans x2, .cons (o1.mono hB x2) o2⟩

theorem inv_initial (B : ℕ → V → Prop) : (LinState.initial : LinState p V).Inv B :=
  ⟨by simp [LinState.initial], by simp [LinState.initial], by simp [LinState.initial]⟩

/-- `v` is none of the variables `fresh n`, `fresh (n + 1)`, ... -/
def NotFrom (fresh : ℕ → V) (n : ℕ) (v : V) : Prop := ∀ m, n ≤ m → v ≠ fresh m

theorem dispenses_notFrom {fresh : ℕ → V} (hf : Function.Injective fresh) :
    Dispenses fresh (NotFrom fresh) where
  mono _ _ _ hn h m hm := h m (hn.trans hm)
  succ n m hm h := by have := hf h; omega
  ne n _ h := h n le_rfl

theorem below_of_fresh {fresh : ℕ → V} {e : GExpr p V} (h : ∀ n, ¬ Occurs (fresh n) e) (k : ℕ) :
    Below (NotFrom fresh) k e := by
  rintro v hv m - rfl
  exact h m (mem_vars_iff_occurs.1 hv)

theorem holds_of_constraints {fresh : ℕ → V} {B : ℕ → V → Prop} {st : LinState p V}
    (hx : LinExt fresh B LinState.initial st) {τ : V → ZMod p}
    (h : ∀ c ∈ st.constraints, eval τ c = 0) : st.Holds τ := by
  refine ⟨h, fun x hxm => ?_⟩
  rcases hx.implied x hxm with h1 | h1
  · cases h1
  · have := h _ h1
    rwa [show x.1 - x.2 = sub x.1 x.2 from rfl, eval_sub, sub_eq_zero] at this

/-- C19: for every sequence of constraints, an assignment that satisfies the linearized
constraints and the definitions of the new variables satisfies the original constraints; indeed each
linearized expression has the value of the original one. -/
theorem C19_sound (fresh : ℕ → V) (hf : Function.Injective fresh) (es : List (GExpr p V))
    (hw : ∀ e ∈ es, WF e) (hfr : ∀ e ∈ es, ∀ n, ¬ Occurs (fresh n) e) (τ : V → ZMod p)
    (h : ∀ c ∈ (linearizeAll fresh es .initial).2.constraints, eval τ c = 0) :
    List.Forall₂ (fun e r => eval τ r = eval τ e) es (linearizeAll fresh es .initial).1 := by
  obtain ⟨x, o⟩ := linearizeAll_spec (dispenses_notFrom hf) es (inv_initial _) hw
    (fun e he => below_of_fresh (hfr e he) _)
  exact o.imp fun e r ho => ho.sound τ (holds_of_constraints x h)

/-- C19: every assignment can be changed on the new variables only, such that their definitions hold.
In particular no solution of the original constraints is lost. -/
theorem C19_complete (fresh : ℕ → V) (hf : Function.Injective fresh) (es : List (GExpr p V))
    (hw : ∀ e ∈ es, WF e) (hfr : ∀ e ∈ es, ∀ n, ¬ Occurs (fresh n) e) (σ : V → ZMod p) :
    ∃ τ : V → ZMod p, (∀ v, (∀ n, v ≠ fresh n) → τ v = σ v) ∧
      ∀ c ∈ (linearizeAll fresh es .initial).2.constraints, eval τ c = 0 := by
  obtain ⟨x, -⟩ := linearizeAll_spec (dispenses_notFrom hf) es (inv_initial _) hw
    (fun e he => below_of_fresh (hfr e he) _)
  obtain ⟨τ, h1, h2⟩ := x.complete σ ⟨by simp [LinState.initial], by simp [LinState.initial]⟩
  exact ⟨τ, fun v hv => h1 v fun m _ _ => hv m, h2.1⟩

/-- C19: the solutions of the original constraints are exactly the solutions of the linearized ones,
restricted to the original variables. -/
theorem C19_projection (fresh : ℕ → V) (hf : Function.Injective fresh) (es : List (GExpr p V))
    (hw : ∀ e ∈ es, WF e) (hfr : ∀ e ∈ es, ∀ n, ¬ Occurs (fresh n) e) (σ : V → ZMod p) :
    (∀ e ∈ es, eval σ e = 0) ↔
      ∃ τ : V → ZMod p, (∀ v, (∀ n, v ≠ fresh n) → τ v = σ v) ∧
        (∀ c ∈ (linearizeAll fresh es .initial).2.constraints, eval τ c = 0) ∧
        ∀ r ∈ (linearizeAll fresh es .initial).1, eval τ r = 0 := by
  have agree : ∀ τ : V → ZMod p, (∀ v, (∀ n, v ≠ fresh n) → τ v = σ v) →
      ∀ e ∈ es, eval τ e = eval σ e := by
    intro τ hτ e he
    apply eval_congr
    intro v hv
    apply hτ
    rintro n rfl
    exact hfr e he n (mem_vars_iff_occurs.1 hv)
  have f2 : ∀ {l r : List (GExpr p V)} {τ : V → ZMod p},
      List.Forall₂ (fun e r => eval τ r = eval τ e) l r →
      ((∀ e ∈ l, eval τ e = 0) ↔ ∀ e ∈ r, eval τ e = 0) := by
    intro l r τ h
    induction h with
    | nil => simp
    | cons h1 _ ih => simp only [List.mem_cons, forall_eq_or_imp, h1, ih]
  constructor
  · intro h
    obtain ⟨τ, h1, h2⟩ := C19_complete fresh hf es hw hfr σ
    refine ⟨τ, h1, h2, ?_⟩
    rw [← f2 (C19_sound fresh hf es hw hfr τ h2)]
    intro e he
    rw [agree τ h1 e he]
    exact h e he
  · rintro ⟨τ, h1, h2, h3⟩ e he
    rw [← agree τ h1 e he]
    exact (f2 (C19_sound fresh hf es hw hfr τ h2)).2 h3 e he

/-- C19: the linearized expressions are affine. -/
theorem C19_affine (fresh : ℕ → V) (hf : Function.Injective fresh) (es : List (GExpr p V))
    (hw : ∀ e ∈ es, WF e) (hfr : ∀ e ∈ es, ∀ n, ¬ Occurs (fresh n) e) :
    ∀ r ∈ (linearizeAll fresh es .initial).1, r.quadratic = [] := by
  obtain ⟨-, o⟩ := linearizeAll_spec (dispenses_notFrom hf) es (inv_initial _) hw
    (fun e he => below_of_fresh (hfr e he) _)
  intro r hr
  have : ∀ {l r : List (GExpr p V)} {st : LinState p V},
      List.Forall₂ (fun e r => LinOut (NotFrom fresh) e r st) l r → ∀ x ∈ r, x.isAffine = true := by
    intro l r st h
    induction h with
    | nil => simp
    | cons h1 _ ih => simp only [List.mem_cons, forall_eq_or_imp]; exact ⟨h1.affine, ih⟩
  exact isAffine_iff.1 (this o r hr)

/-- C19: expressions that were seen before get the same variables: linearizing an expression again,
after any sequence of others, has the same result and adds no constraint. -/
theorem C19_reuse (fresh : ℕ → V) (e : GExpr p V) (es : List (GExpr p V)) (st : LinState p V) :
    linearizeExpression fresh e (linearizeAll fresh es (linearizeExpression fresh e st).2).2 =
      ((linearizeExpression fresh e st).1,
        (linearizeAll fresh es (linearizeExpression fresh e st).2).2) := by
  apply linearizeExpression_existing
  apply (linearizeExpression_reuse fresh e st).2
  generalize (linearizeExpression fresh e st).2 = st'
  induction es generalizing st' with
  | nil => exact fun _ _ h => h
  | cons e' t ih =>
    exact fun k r h => ih _ k r ((linearizeExpression_reuse fresh e' st').1 k r h)

/-- C19: all internal versions of an expression that are looked up in the state after any sequence of
constraints have the value of that expression. -/
theorem C19_internal_versions (fresh : ℕ → V) (hf : Function.Injective fresh)
    (es : List (GExpr p V)) (hw : ∀ e ∈ es, WF e) (hfr : ∀ e ∈ es, ∀ n, ¬ Occurs (fresh n) e)
    (τ : V → ZMod p) (h : ∀ c ∈ (linearizeAll fresh es .initial).2.constraints, eval τ c = 0)
    (e : GExpr p V) (hwe : WF e) (hfe : ∀ n, ¬ Occurs (fresh n) e) :
    ∀ r ∈ internalizedVersions (linearizeAll fresh es .initial).2.subs e, eval τ r = eval τ e := by
  obtain ⟨x, -⟩ := linearizeAll_spec (dispenses_notFrom hf) es (inv_initial _) hw
    (fun e he => below_of_fresh (hfr e he) _)
  intro r hr
  exact (internalizedVersions_spec x.inv hwe (below_of_fresh hfe _) r hr).2.2 τ
    (holds_of_constraints x h)

/-- C19: after variables were replaced, the linearizer knows the same products, in terms of the new
expressions: every entry is an old entry with the replacement applied, none is lost, and the
replaced variable is gone. -/
theorem C19_assignments_applied (perm : LinearSubs p V → LinearSubs p V)
    (hp : ∀ l, (perm l).Perm l) (subs : LinearSubs p V) (v : V) (r : GExpr p V)
    (hr : ¬ Occurs v r) :
    (∀ x ∈ LinearSubs.applyAssignments perm subs [(v, r)], ¬ Occurs v x.1 ∧ ¬ Occurs v x.2 ∧
      ∃ y ∈ subs, ∀ σ : V → ZMod p, eval σ x.1 = eval (Function.update σ v (eval σ r)) y.1 ∧
        eval σ x.2 = eval (Function.update σ v (eval σ r)) y.2) ∧
    ∀ y ∈ subs, ∃ x ∈ LinearSubs.applyAssignments perm subs [(v, r)], ∀ σ : V → ZMod p,
      eval σ x.1 = eval (Function.update σ v (eval σ r)) y.1 ∧
        eval σ x.2 = eval (Function.update σ v (eval σ r)) y.2 := by
  have h1 : LinearSubs.applyAssignments perm subs [(v, r)] =
      (perm subs).map fun y => (subst v r y.1, subst v r y.2) := by
    unfold LinearSubs.applyAssignments
    rw [if_neg (by simp), applySubstitutionsToExpressions_eq, applySubstitutionsToExpressions_eq,
      List.map_map, List.map_map, List.zip_map']
    rfl
  have hv : ∀ e : GExpr p V, ¬ Occurs v (subst v r e) := by
    intro e h
    rcases vars_subst v r (mem_vars_iff_occurs.2 h) with h | h
    · exact h.2 rfl
    · exact hr (mem_vars_iff_occurs.1 h.1)
  rw [h1]
  constructor
  · intro x hx
    obtain ⟨y, hy, rfl⟩ := List.mem_map.1 hx
    exact ⟨hv _, hv _, y, (hp subs).mem_iff.1 hy, fun σ => ⟨eval_subst σ v r _, eval_subst σ v r _⟩⟩
  · intro y hy
    exact ⟨_, List.mem_map.2 ⟨y, (hp subs).mem_iff.2 hy, rfl⟩, fun σ =>
      ⟨eval_subst σ v r _, eval_subst σ v r _⟩⟩

/-- `x0 * (x1 + x2) - 3` and `x0 * (x1 + x2) + x3 * x0`. -/
def sampleLinearize : List (GExpr 17 ℕ) :=
  [var 0 * (var 1 + var 2) - const 3, var 0 * (var 1 + var 2) + var 3 * var 0]

theorem sampleLinearize_wf : ∀ e ∈ sampleLinearize, WF e := by
  intro e he
  simp only [sampleLinearize, List.mem_cons, List.not_mem_nil, or_false] at he
  rcases he with rfl | rfl
  · exact wf_sub (wf_mul (wf_var 0) (wf_add (wf_var 1) (wf_var 2))) (wf_const 3)
  · exact wf_add (wf_mul (wf_var 0) (wf_add (wf_var 1) (wf_var 2))) (wf_mul (wf_var 3) (wf_var 0))

-- The shared subexpressions are shared.
example : (linearizeAll (· + 10) sampleLinearize .initial).1 =
    [var 11 - const 3, var 11 + var 12] ∧
    (linearizeAll (· + 10) sampleLinearize .initial).2.constraints =
      [var 1 + var 2 - var 10, var 0 * var 10 - var 11, var 3 * var 0 - var 12] := by
  decide +kernel
example : Function.Injective (fun n : ℕ => n + 10) := fun _ _ h => by simpa using h
example : ∀ e ∈ sampleLinearize, ∀ n, ¬ Occurs (n + 10) e := by
  intro e he n
  rw [← mem_vars_iff_occurs]
  have h : ∀ e ∈ sampleLinearize, ∀ v ∈ vars e, v < 10 := by decide +kernel
  exact fun hv => absurd (h e he _ hv) (by omega)

end Verif
