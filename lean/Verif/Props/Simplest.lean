import Verif.Proofs.Simplest
import Verif.Props.ConstraintOptimizer

/-! # Property C105: the trivial simplifications leave nothing to simplify -/

namespace Verif

open GExpr

set_option linter.unusedSectionVars false

variable {p : ℕ} [Fact p.Prime] {V : Type} [LinearOrder V]

/-- Simplifying once more neither panics nor changes anything. -/
theorem C105_idempotent (f : ZMod p → Bool) (s s' : ConstraintSystem p V) (hw : s.WF)
    (h : trivialSimplifications f s = .ok s') : trivialSimplifications f s' = .ok s' :=
  Simplest.idempotent hw h

/-- No constraint is a constant, none has the same factor twice, and for any two of them neither has
all factors of the other. -/
theorem C105_factors (f : ZMod p → Bool) (s s' : ConstraintSystem p V) (hw : s.WF)
    (h : trivialSimplifications f s = .ok s') :
    (∀ e ∈ s'.algebraic, (∀ c, e ≠ const c) ∧ (toFactors e).Nodup) ∧
    s'.algebraic.Pairwise fun a b =>
      (∃ g ∈ toFactors a, g ∉ toFactors b) ∧ ∃ g ∈ toFactors b, g ∉ toFactors a := by
  obtain ⟨s1, -, rfl, -, h1, h2⟩ := Simplest.result hw h
  refine ⟨fun e he => ⟨?_, (h1 e he).2.2⟩, h2.imp fun {a b} hab => ?_⟩
  · rintro c rfl
    have := (h1 _ he).1
    simp [const, tryToKnown] at this
  · unfold Simplest.Related at hab
    simp only [List.subset_def, not_or, not_forall] at hab
    obtain ⟨⟨g, g1, g2⟩, k, k1, k2⟩ := hab
    exact ⟨⟨g, g1, g2⟩, k, k1, k2⟩

/-- No constraint appears twice, and none is the product of another one and an expression that is not
constant. -/
theorem C105_products (f : ZMod p → Bool) (s s' : ConstraintSystem p V) (hw : s.WF)
    (h : trivialSimplifications f s = .ok s') :
    s'.algebraic.Nodup ∧
    ∀ a ∈ s'.algebraic, ∀ b ∈ s'.algebraic, ∀ c : GExpr p V, (∀ k, c ≠ const k) →
      a ≠ b * c ∧ a ≠ c * b := by
  obtain ⟨h1, h2⟩ := C105_factors f s s' hw h
  have hk : ∀ e : GExpr p V, (∀ k, e ≠ const k) → e.tryToKnown = none := by
    intro e he
    rcases e with ⟨_ | ⟨x, q⟩, _ | ⟨y, l⟩, c⟩
    · exact absurd rfl (he c)
    all_goals simp [tryToKnown]
  have hd : ∀ a ∈ s'.algebraic, ∀ b ∈ s'.algebraic, toFactors b ⊆ toFactors a → a = b := by
    intro a ha b hb hsub
    by_contra hne
    obtain ⟨i, hi, rfl⟩ := List.mem_iff_getElem.1 ha
    obtain ⟨j, hj, rfl⟩ := List.mem_iff_getElem.1 hb
    rw [List.pairwise_iff_getElem] at h2
    rcases Nat.lt_trichotomy i j with hij | rfl | hij
    · obtain ⟨-, g, g1, g2⟩ := h2 i j hi hj hij
      exact g2 (hsub g1)
    · exact hne rfl
    · obtain ⟨⟨g, g1, g2⟩, -⟩ := h2 j i hj hi hij
      exact g2 (hsub g1)
  have size : ∀ b c : GExpr p V, mk [(b, c)] [] 0 ≠ b ∧ mk [(c, b)] [] 0 ≠ b := by
    intro b c
    constructor <;> intro h <;> have := congrArg sizeOf h <;> simp at this <;> omega
  refine ⟨h2.imp fun {a b} hab => ?_, fun a ha b hb c hc => ⟨?_, ?_⟩⟩
  · rintro rfl
    obtain ⟨⟨g, g1, g2⟩, -⟩ := hab
    exact g2 g1
  · rintro rfl
    have hm : b * c = mk [(b, c)] [] 0 := by
      show mul b c = _
      simp [mul, hk b (h1 b hb).1, hk c hc]
    have := hd _ ha b hb (by
      rw [hm, toFactors, if_pos rfl]
      exact List.subset_append_left _ _)
    rw [hm] at this
    exact (size b c).1 this
  · rintro rfl
    have hm : c * b = mk [(c, b)] [] 0 := by
      show mul c b = _
      simp [mul, hk b (h1 b hb).1, hk c hc]
    have := hd _ ha b hb (by
      rw [hm, toFactors, if_pos rfl]
      exact List.subset_append_right _ _)
    rw [hm] at this
    exact (size b c).2 this

/-- No bus interaction has multiplicity zero, on a bus without state none appears twice, and every
derived variable is mentioned. -/
theorem C105_rest (f : ZMod p → Bool) (s s' : ConstraintSystem p V) (hw : s.WF)
    (h : trivialSimplifications f s = .ok s') :
    (∀ b ∈ s'.bus, b.multiplicity ≠ const 0) ∧
    s'.bus.Pairwise (fun b c => ∀ id, b.busId = const id → f id = false → b ≠ c) ∧
    ∀ d ∈ s'.derived, s'.Mentions d.column := by
  obtain ⟨s1, -, rfl, hb, -, -⟩ := Simplest.result hw h
  refine ⟨fun b hb' h0 => ?_, ?_, fun d hd => ?_⟩
  · have hb' : b ∈ s1.bus := hb'
    rw [hb] at hb'
    have := (List.mem_filter.1 ((retainUnseen_sublist f _ _).subset hb')).2
    rw [h0] at this
    simp [isZero, const, tryToKnown] at this
  · show s1.bus.Pairwise _
    rw [hb]
    refine (Simplest.retainUnseen_pairwise f _ _).imp fun {b c} hbc id hid hf => ?_
    exact hbc id (by rw [hid]; simp [tryToNumber, const, tryToKnown]) hf
  · exact ((C50_derived s1 d).2.2.1 hd).2

/-- The sample of C50 has something to remove in each of these respects. -/
example : redundantSample.WF ∧
    trivialSimplifications (fun b => b = 1) redundantSample =
      .ok ⟨[var 0 * var 1, var 2],
        [⟨const 7, const 1, [var 0]⟩, ⟨const 1, const 1, [var 0]⟩, ⟨const 1, const 1, [var 0]⟩],
        [⟨1, .quotientOrZero (var 0) (var 1)⟩]⟩ := by
  have : Fact (Nat.Prime 17) := ⟨by decide⟩
  refine ⟨⟨?_, ?_⟩, by decide +kernel⟩
  · simp only [redundantSample, List.forall_mem_cons, List.not_mem_nil, false_implies, implies_true,
      and_true]
    exact ⟨wf_mul (wf_var _) (wf_var _), wf_mul (wf_mul (wf_var _) (wf_var _)) (wf_var _), wf_var _,
      wf_mul (wf_var _) (wf_var _), wf_scale _ (wf_var _), wf_const _⟩
  · simp only [redundantSample, List.forall_mem_cons, List.not_mem_nil, false_implies, implies_true,
      and_true, BusInteraction.WF, BusInteraction.fields]
    simp only [wf_const, wf_var, and_self]

/-- A multiple by a constant is not found if the constraint is a sum of products only: such a factor
is not normalized. -/
example : trivialSimplifications (fun _ => false)
    (⟨[var 0 * var 1 + var 2 * var 3, scale 3 (var 0 * var 1 + var 2 * var 3),
       var 0 * var 1 + var 4, scale 3 (var 0 * var 1 + var 4)], [], []⟩ : ConstraintSystem 17 ℕ) =
    .ok ⟨[var 0 * var 1 + var 2 * var 3, scale 3 (var 0 * var 1 + var 2 * var 3),
       var 0 * var 1 + var 4], [], []⟩ := by decide +kernel

end Verif
