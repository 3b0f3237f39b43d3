import Verif.Proofs.Inlined
import Verif.Props.Inliner

/-! # Property C104: inlining goes on until nothing more can be inlined -/

namespace Verif

open GExpr

set_option linter.unusedSectionVars false

variable {p : ℕ} [Fact p.Prime] {V : Type} [LinearOrder V]

/-- The constraints that remain are original ones with all substitutions made. If one of them is
linear in a variable `x`, then replacing `x` by its value from this constraint exceeds the degree
bound in some constraint or bus interaction. The callback may agree to more than the bound. -/
theorem C104_complete (s : ConstraintSystem p V) (ops : List (IndexedOp p V))
    (hw : (indexedHistory s ops).sys.WF) (bound : DegreeBound) (should : ShouldInline p V)
    (hb : ∀ x e t, should x e t = .ok false → belowDegreeBound bound x e t = .ok false)
    (passes : ℕ) (ix : Indexed p V) (subs : List (V × GExpr p V))
    (h : replaceConstrainedWitnessColumns passes (indexedHistory s ops) should =
      .ok (some (ix, subs))) :
    (∀ e ∈ ix.sys.algebraic, ∃ e0 ∈ (indexedHistory s ops).sys.algebraic,
      e = substituteAll subs e0) ∧
    ∀ e ∈ ix.sys.algebraic, ∀ x, LinearIn x e →
      (∃ c ∈ (indexedHistory s ops).sys.algebraic, ∃ n > bound.identities,
        TermDegree x (without x e).degree (substituteAll subs c) n) ∨
      ∃ b ∈ ix.sys.bus, ∃ f ∈ b.fields, ∃ n > bound.busInteractions,
        TermDegree x (without x e).degree f n := by
  obtain ⟨h1, h2⟩ := Inlined.complete (Indexed.inv_history s ops) hw hb h
  refine ⟨fun e he => ?_, fun e he x hx => ?_⟩
  · obtain ⟨e0, h3, h4⟩ := List.mem_map.1 (h1 e he)
    exact ⟨e0, h3, h4.symm⟩
  · rcases h2 e (h1 e he) x hx with ⟨c, c1, c2⟩ | ⟨b, b1, f, f1, f2⟩
    · obtain ⟨c0, c3, rfl⟩ := List.mem_map.1 c1
      exact Or.inl ⟨c0, c3, _, c2, Inlined.termDegree_virtual x _ _⟩
    · exact Or.inr ⟨b, b1, f, f1, _, f2, Inlined.termDegree_virtual x _ _⟩

/-- If the system is within the bound at the start, then the place where the bound would be exceeded
contains the variable. -/
theorem C104_occurs (s : ConstraintSystem p V) (ops : List (IndexedOp p V))
    (hw : (indexedHistory s ops).sys.WF) (bound : DegreeBound)
    (h0 : ∀ e ∈ (indexedHistory s ops).sys.algebraic, e.degree ≤ bound.identities)
    (h1 : ∀ b ∈ (indexedHistory s ops).sys.bus, ∀ e ∈ b.fields,
      e.degree ≤ bound.busInteractions)
    (passes : ℕ) (ix : Indexed p V) (subs : List (V × GExpr p V))
    (h : replaceConstrainedWitnessColumns passes (indexedHistory s ops)
      (belowDegreeBound bound) = .ok (some (ix, subs)))
    (e : GExpr p V) (he : e ∈ ix.sys.algebraic) (x : V) (hx : LinearIn x e) :
    (∃ c ∈ (indexedHistory s ops).sys.algebraic, (substituteAll subs c).Occurs x ∧
      ∃ n > bound.identities, TermDegree x (without x e).degree (substituteAll subs c) n) ∨
    ∃ b ∈ ix.sys.bus, ∃ f ∈ b.fields, f.Occurs x ∧
      ∃ n > bound.busInteractions, TermDegree x (without x e).degree f n := by
  have hi := Indexed.inv_history s ops
  obtain ⟨h2, h3⟩ := Inlined.complete hi hw (bound := bound) (fun _ _ _ h => h) h
  obtain ⟨w1, w2⟩ := Inlined.within hi hw (bound := bound) (fun _ _ _ h => h) h0 h1 h
  rcases h3 e (h2 e he) x hx with ⟨c, c1, c2⟩ | ⟨b, b1, f, f1, f2⟩
  · obtain ⟨c0, c3, rfl⟩ := List.mem_map.1 c1
    refine Or.inl ⟨c0, c3, ?_, _, c2, Inlined.termDegree_virtual x _ _⟩
    by_contra hn
    exact absurd (c2.trans_le (Inlined.virtualDegree_le_degree hn)) (not_lt.2 (w1 _ c1))
  · refine Or.inr ⟨b, b1, f, f1, ?_, _, f2, Inlined.termDegree_virtual x _ _⟩
    by_contra hn
    exact absurd (f2.trans_le (Inlined.virtualDegree_le_degree hn)) (not_lt.2 (w2 b b1 f f1))

/-- So all linear constraints are used up: in a system within the bound, each constraint that
remains has a product or is a constant. -/
theorem C104_no_linear_left (s : ConstraintSystem p V) (ops : List (IndexedOp p V))
    (hw : (indexedHistory s ops).sys.WF) (bound : DegreeBound)
    (h0 : ∀ e ∈ (indexedHistory s ops).sys.algebraic, e.degree ≤ bound.identities)
    (h1 : ∀ b ∈ (indexedHistory s ops).sys.bus, ∀ e ∈ b.fields,
      e.degree ≤ bound.busInteractions)
    (passes : ℕ) (ix : Indexed p V) (subs : List (V × GExpr p V))
    (h : replaceConstrainedWitnessColumns passes (indexedHistory s ops)
      (belowDegreeBound bound) = .ok (some (ix, subs)))
    (e : GExpr p V) (he : e ∈ ix.sys.algebraic) (hq : e.quadratic = []) :
    ∃ c : ZMod p, e = const c := by
  have hi := Indexed.inv_history s ops
  obtain ⟨h2, h3⟩ := Inlined.complete hi hw (bound := bound) (fun _ _ _ h => h) h
  obtain ⟨w1, w2⟩ := Inlined.within hi hw (bound := bound) (fun _ _ _ h => h) h0 h1 h
  obtain ⟨q, l, c⟩ := e
  simp only [quadratic] at hq
  subst hq
  cases l with
  | nil => exact ⟨c, rfl⟩
  | cons t l =>
    exfalso
    have hd : (without t.1 (mk [] (t :: l) c : GExpr p V)).degree ≤ 1 := by
      simp only [without, quadratic, degree, degreeQ]
      split <;> simp
    rcases h3 _ (h2 _ he) t.1 ⟨⟨t.2, List.mem_cons_self⟩, by simp [quadratic]⟩ with
      ⟨c', c1, c2⟩ | ⟨b, b1, f, f1, f2⟩
    · exact absurd (c2.trans_le (Inlined.virtualDegree_one _ hd c')) (not_lt.2 (w1 _ c1))
    · exact absurd (f2.trans_le (Inlined.virtualDegree_one _ hd f)) (not_lt.2 (w2 b b1 f f1))

/-! A linear constraint and two products: what is linear is used up, and so is `x2 = x1 * x0`; the
last constraint would make the bus interaction too large. -/

example : (∀ e ∈ (indexedHistory sampleInline []).sys.algebraic, e.degree ≤ 4) ∧
    (∀ b ∈ (indexedHistory sampleInline []).sys.bus, ∀ e ∈ b.fields, e.degree ≤ 1) ∧
    (replaceConstrainedWitnessColumns 5 (indexedHistory sampleInline [])
      (belowDegreeBound ⟨4, 1⟩)).map (fun o => o.map fun r => decide (
        r.1.sys.algebraic = [var 3 - (var 0 + const 3) * var 0 * ((var 0 + const 3) * var 0)] ∧
        r.2 = [(1, var 0 + const 3), (2, var 1 * var 0)])) = .ok (some true) := by
  decide +kernel

end Verif
