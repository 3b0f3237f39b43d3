import Verif.Model.Indexed
import Verif.Proofs.ConstraintSystem
import Verif.Spec.Indexed

/-! Derived variables and substitution. -/

namespace Verif

open GExpr

set_option linter.unusedSectionVars false

variable {p : ℕ} {V : Type} [LinearOrder V] [Fact p.Prime]

/-- The derived variables have well-formed computation methods and their values. -/
def DerivedGood (σ : V → ZMod p) (ds : List (DerivedVariable p V)) : Prop :=
  ∀ d ∈ ds, d.method.WF ∧ d.Computed σ

theorem value_mapExpr_of {σ : V → ZMod p} {f : GExpr p V → GExpr p V}
    (hf : ∀ e, GExpr.WF e → eval σ (f e) = eval σ e) {m : ComputationMethod p (GExpr p V)}
    (hm : m.WF) : (m.mapExpr f).value σ = m.value σ := by
  cases m with
  | constant c => rfl
  | quotientOrZero e1 e2 =>
    simp only [ComputationMethod.mapExpr, ComputationMethod.value]
    rw [hf e1 hm.1, hf e2 hm.2]

theorem derivedGood_map {σ : V → ZMod p} {f : GExpr p V → GExpr p V}
    (hf : ∀ e, GExpr.WF e → eval σ (f e) = eval σ e) (hw : ∀ e, GExpr.WF e → GExpr.WF (f e))
    {ds : List (DerivedVariable p V)} (h : DerivedGood σ ds) :
    DerivedGood σ (ds.map fun d => ⟨d.column, d.method.mapExpr f⟩) := by
  intro d' hd'
  obtain ⟨d, hd, rfl⟩ := List.mem_map.1 hd'
  obtain ⟨h1, h2⟩ := h d hd
  refine ⟨?_, ?_⟩
  · clear h2 hd hd'
    obtain ⟨c, m⟩ := d
    cases m with
    | constant c => trivial
    | quotientOrZero e1 e2 => exact ⟨hw e1 h1.1, hw e2 h1.2⟩
  · show σ d.column = _
    rw [value_mapExpr_of hf h1]
    exact h2

theorem derivedGood_subst {σ : V → ZMod p} {x : V} {r : GExpr p V} (hr : GExpr.WF r)
    (hx : σ x = eval σ r) {s : ConstraintSystem p V} (h : DerivedGood σ s.derived) :
    DerivedGood σ (s.mapExpr (GExpr.subst x r)).derived :=
  derivedGood_map (f := GExpr.subst x r)
    (fun e _ => by rw [eval_subst, ← hx, Function.update_eq_self]) (fun e he => wf_subst x hr he) h

theorem derivedGood_foldl_subst {σ : V → ZMod p} {l : List (V × GExpr p V)}
    (hl : ∀ x ∈ l, GExpr.WF x.2) (hx : ∀ x ∈ l, σ x.1 = eval σ x.2) {s : ConstraintSystem p V}
    (h : DerivedGood σ s.derived) :
    DerivedGood σ (l.foldl (fun s x => s.mapExpr (GExpr.subst x.1 x.2)) s).derived := by
  induction l generalizing s with
  | nil => exact h
  | cons y t ih =>
    exact ih (fun z hz => hl z (List.mem_cons_of_mem _ hz))
      (fun z hz => hx z (List.mem_cons_of_mem _ hz))
      (derivedGood_subst (hl y List.mem_cons_self) (hx y List.mem_cons_self) h)

end Verif
