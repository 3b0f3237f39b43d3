import Verif.Proofs.SolverSteps
import Verif.Proofs.TerminationExpr
import Verif.Proofs.TerminationSplit

/-! Helper lemmas for the termination of the solver: the measure of a state and how adding
constraints and assigning variables change it. -/

set_option linter.unusedSectionVars false

namespace Verif

open GExpr

variable {p : ℕ} {V : Type} [Fact p.Prime] [LinearOrder V]

/-! ### Ranks of variables -/

/-- Original variables are in the list. -/
def SVar.In (O : List V) : SVar V → Prop
  | .original v => v ∈ O
  | .boolean _ => True
  | .linearized _ => True

/-- The rank of a variable, given the list of relevant original variables. -/
def SVar.rank (O : List V) : SVar V → ℕ ×ₗ ℕ
  | .original v => _root_.toLex (0, (O.toFinset.filter fun o => o < v).card)
  | .boolean n => _root_.toLex (1, n)
  | .linearized n => _root_.toLex (2, n)

theorem SVar.rank_lt {O : List V} {x y : SVar V} (hy : y.In O) (h : y < x) : y.rank O < x.rank O := by
  have h' : y.toLex < x.toLex := h
  cases y with
  | original w =>
    cases x with
    | original v =>
      simp only [SVar.toLex, Sum.Lex.inl_lt_inl_iff] at h'
      simp only [SVar.rank, Prod.Lex.toLex_lt_toLex]
      refine Or.inr ⟨by trivial, Finset.card_lt_card ((Finset.ssubset_iff_of_subset ?_).2 ⟨w, ?_, ?_⟩)⟩
      · intro o ho
        rw [Finset.mem_filter] at ho ⊢
        exact ⟨ho.1, ho.2.trans h'⟩
      · rw [Finset.mem_filter]
        exact ⟨List.mem_toFinset.2 hy, h'⟩
      · rw [Finset.mem_filter]
        exact fun hh => lt_irrefl _ hh.2
    | boolean n => simp [SVar.rank, Prod.Lex.toLex_lt_toLex]
    | linearized n => simp [SVar.rank, Prod.Lex.toLex_lt_toLex]
  | boolean m =>
    cases x with
    | original v => simp [SVar.toLex] at h'
    | boolean n =>
      simp only [SVar.toLex, Sum.Lex.inr_lt_inr_iff, Sum.Lex.inl_lt_inl_iff] at h'
      simp [SVar.rank, Prod.Lex.toLex_lt_toLex, h']
    | linearized n => simp [SVar.rank, Prod.Lex.toLex_lt_toLex]
  | linearized m =>
    cases x with
    | original v => simp [SVar.toLex] at h'
    | boolean n => simp [SVar.toLex] at h'
    | linearized n =>
      simp only [SVar.toLex, Sum.Lex.inr_lt_inr_iff] at h'
      simp [SVar.rank, Prod.Lex.toLex_lt_toLex, h']

/-! ### The measure of a constraint -/

/-- Measures of non-affine constraints. -/
abbrev SlotMeasure := ℕ ×ₗ DMSet (ℕ ×ₗ ℕ) ×ₗ ℕ

/-- The ranks of the variables of an expression. -/
def varRanks (O : List V) (e : GExpr p (SVar V)) : DMSet (ℕ ×ₗ ℕ) :=
  ⟨(vars e).toFinset.val.map (SVar.rank O)⟩

/-- One if a Boolean can be extracted. -/
def extractFlag (subs : BooleanSubs p (SVar V)) (e : GExpr p (SVar V)) : ℕ :=
  if Extractable subs e (.boolean 0) then 1 else 0

/-- The measure of a constraint; affine constraints do not count. -/
def slot (O : List V) (subs : BooleanSubs p (SVar V)) (e : GExpr p (SVar V)) :
    Option SlotMeasure :=
  if e.isAffine then none else some (toLex (prods e, toLex (varRanks O e, extractFlag subs e)))

theorem slot_none {O : List V} {subs : BooleanSubs p (SVar V)} {e : GExpr p (SVar V)} :
    slot O subs e = none ↔ e.isAffine = true := by
  unfold slot
  split <;> simp [*]

theorem slot_some {O : List V} {subs : BooleanSubs p (SVar V)} {e : GExpr p (SVar V)}
    {a : SlotMeasure} (h : slot O subs e = some a) :
    a = toLex (prods e, toLex (varRanks O e, extractFlag subs e)) ∧ e.isAffine = false := by
  unfold slot at h
  split at h
  · cases h
  · rename_i hh
    cases h
    exact ⟨rfl, by simpa using hh⟩

theorem slot_of_prods {O : List V} {subs : BooleanSubs p (SVar V)} {e : GExpr p (SVar V)}
    (h : prods e ≠ 0) :
    slot O subs e = some (toLex (prods e, toLex (varRanks O e, extractFlag subs e))) := by
  unfold slot
  rw [if_neg]
  exact fun hh => h (prods_eq_zero_iff.2 hh)

theorem extractFlag_mono {subs subs' : BooleanSubs p (SVar V)} (h : ∀ x ∈ subs, x ∈ subs')
    (e : GExpr p (SVar V)) : extractFlag subs' e ≤ extractFlag subs e := by
  unfold extractFlag
  split
  · rename_i hh
    rw [if_pos (extractable_mono h hh)]
  · exact Nat.zero_le _

theorem extractable_prods {subs : BooleanSubs p (SVar V)} {e : GExpr p (SVar V)} {z : SVar V}
    (h : Extractable subs e z = true) : prods e ≠ 0 := by
  obtain ⟨x, hx⟩ := Option.isSome_iff_exists.1 h
  have := (tryExtractBoolean_decreases (z' := z) (x := x.1) (subs' := x.2) hx).2.2.2
  omega

/-- The right hand side of an assignment of the solver: a constant or a smaller variable. -/
def Smaller (O : List V) (x : SVar V) (r : GExpr p (SVar V)) : Prop :=
  prods r = 0 ∧ ∀ y ∈ vars r, y.In O ∧ y < x

/-- An assignment makes the measure of a constraint that contains the variable smaller. -/
theorem slot_subst {O : List V} {subs subs' : BooleanSubs p (SVar V)}
    {x : SVar V} {r e : GExpr p (SVar V)} (hr : Smaller O x r) (hx : x ∈ vars e)
    {a' : SlotMeasure} (ha : slot O subs' (GExpr.subst x r e) = some a') :
    ∃ a, slot O subs e = some a ∧ a' < a := by
  obtain ⟨rfl, ha1⟩ := slot_some ha
  have hle := prods_subst x hr.1 e
  have h0 : prods (GExpr.subst x r e) ≠ 0 := fun h => by
    rw [prods_eq_zero_iff.1 h] at ha1; cases ha1
  refine ⟨_, slot_of_prods (by omega), ?_⟩
  rw [Prod.Lex.toLex_lt_toLex]
  rcases Nat.lt_or_ge (prods (GExpr.subst x r e)) (prods e) with h | h
  · exact Or.inl h
  · refine Or.inr ⟨le_antisymm hle h, ?_⟩
    rw [Prod.Lex.toLex_lt_toLex]
    left
    refine DMSet.map_lt (x := x) (SVar.rank O) (List.mem_toFinset.2 hx) ?_ ?_
    · rw [List.mem_toFinset]
      intro hh
      rcases vars_subst x r hh with h1 | h1
      · exact h1.2 rfl
      · exact lt_irrefl _ (hr.2 x h1.1).2
    · intro y hy hy'
      rw [List.mem_toFinset] at hy hy'
      rcases vars_subst x r hy with h1 | h1
      · exact absurd h1.1 hy'
      · exact SVar.rank_lt (hr.2 y h1.1).1 (hr.2 y h1.1).2

theorem slot_mono {O : List V} {subs subs' : BooleanSubs p (SVar V)} (h : ∀ x ∈ subs, x ∈ subs')
    (e : GExpr p (SVar V)) : slot O subs' e = slot O subs e ∨
      ∃ a, slot O subs e = some a ∧ ∀ a', slot O subs' e = some a' → a' < a := by
  cases ha : slot O subs e with
  | none => left; rw [slot_none] at *; exact ha
  | some a =>
    obtain ⟨rfl, h0⟩ := slot_some ha
    have h1 : slot O subs' e = some (toLex (prods e, toLex (varRanks O e, extractFlag subs' e))) :=
      slot_of_prods fun h => by rw [prods_eq_zero_iff.1 h] at h0; cases h0
    rcases Nat.lt_or_ge (extractFlag subs' e) (extractFlag subs e) with h2 | h2
    · right
      refine ⟨_, rfl, fun a' h3 => ?_⟩
      rw [h1] at h3
      cases h3
      rw [Prod.Lex.toLex_lt_toLex]
      refine Or.inr ⟨rfl, ?_⟩
      rw [Prod.Lex.toLex_lt_toLex]
      exact Or.inr ⟨rfl, h2⟩
    · left
      rw [h1, le_antisymm h2 (extractFlag_mono h e)]

/-- The measure of a constraint after an assignment. -/
theorem slot_step {O : List V} {subs subs' : BooleanSubs p (SVar V)} (h : ∀ x ∈ subs, x ∈ subs')
    {x : SVar V} {r : GExpr p (SVar V)} (hr : Smaller O x r) (e : GExpr p (SVar V)) :
    slot O subs' (GExpr.subst x r e) = slot O subs e ∨
      ∃ a, slot O subs e = some a ∧ ∀ a', slot O subs' (GExpr.subst x r e) = some a' → a' < a := by
  by_cases hx : x ∈ vars e
  · cases ha : slot O subs e with
    | none =>
      left
      rw [slot_none] at *
      rw [← prods_eq_zero_iff] at *
      have := prods_subst x hr.1 e
      omega
    | some a =>
      right
      refine ⟨a, rfl, fun a' ha' => ?_⟩
      obtain ⟨b, hb, hlt⟩ := slot_subst (subs := subs) hr hx ha'
      rw [ha] at hb
      cases hb
      exact hlt
  · rw [subst_of_not_mem hx]
    exact slot_mono h e

/-! ### The measure of a state -/

namespace Solver

variable {s s' : Solver p V} {O : List V}

/-- Invariant: the original variables are in the list. -/
structure TInv (O : List V) (s : Solver p V) : Prop where
  inv : s.Inv
  sys : ∀ v ∈ s.cs.ix.sys.vars, v.In O
  key : ∀ x ∈ s.linSubs, ∀ v ∈ vars x.1, v.In O
  value : ∀ x ∈ s.linSubs, ∀ v ∈ vars x.2, v.In O

theorem SVar.in_mono {O O' : List V} (h : ∀ v ∈ O, v ∈ O') {v : SVar V} (hv : v.In O) : v.In O' := by
  cases v with
  | original v => exact h v hv
  | boolean n => trivial
  | linearized n => trivial

theorem exists_tinv (hi : s.Inv) : ∃ O, TInv O s := by
  let l : List (SVar V) := s.cs.ix.sys.vars ++ s.linSubs.flatMap (fun x => vars x.1 ++ vars x.2)
  have key : ∀ v ∈ l, v.In (l.filterMap SVar.tryToOriginal) := by
    intro v hv
    cases v with
    | original v => exact List.mem_filterMap.2 ⟨_, hv, rfl⟩
    | boolean n => trivial
    | linearized n => trivial
  refine ⟨l.filterMap SVar.tryToOriginal, hi, fun v hv => key v ?_, fun x hx v hv => key v ?_,
    fun x hx v hv => key v ?_⟩
  · exact List.mem_append_left _ hv
  · exact List.mem_append_right _ (List.mem_flatMap.2 ⟨x, hx, List.mem_append_left _ hv⟩)
  · exact List.mem_append_right _ (List.mem_flatMap.2 ⟨x, hx, List.mem_append_right _ hv⟩)

/-- The measure of the non-affine constraints. -/
def slots (O : List V) (s : Solver p V) : DMSet SlotMeasure :=
  ⟨(s.cs.ix.sys.algebraic.filterMap (slot O s.boolSubs) : List SlotMeasure)⟩

/-- The variables of the system. -/
def varSet (s : Solver p V) : Finset (SVar V) := s.cs.ix.sys.vars.toFinset

/-- The measure of the range constraints. -/
def ranges (s : Solver p V) : ℕ ×ₗ ℕ ×ₗ ℕ :=
  toLex (∑ v ∈ s.varSet, (s.rcs v).width, toLex (∑ v ∈ s.varSet, (s.rcs v).mask,
    ∑ v ∈ s.varSet, (s.rcs v).min.val))

/-- The measure of what is known. -/
def measure (O : List V) (s : Solver p V) : DMSet SlotMeasure ×ₗ ℕ ×ₗ ℕ ×ₗ ℕ ×ₗ ℕ :=
  toLex (slots O s, toLex (s.varSet.card, ranges s))

/-- Smaller or the same. -/
def WeaklySmaller {α : Type} [LT α] (a b : α) : Prop := a < b ∨ a = b

theorem measure_congr (h1 : s'.cs.ix.sys = s.cs.ix.sys) (h2 : s'.rcs = s.rcs)
    (h3 : s'.boolSubs = s.boolSubs) : measure O s' = measure O s := by
  unfold measure slots ranges varSet
  rw [h1, h2, h3]

/-- Changing the range constraint of a variable of the system. -/
theorem measure_setRc {x : SVar V} {r : RangeConstraint p} (hx : x ∈ s.cs.ix.sys.vars)
    (hne : (s.rcs x).conjunction r ≠ s.rcs x) : measure O (setRc x r s) < measure O s := by
  have hx' : x ∈ s.varSet := List.mem_toFinset.2 hx
  have sumlt : ∀ f : RangeConstraint p → ℕ, f ((s.rcs x).conjunction r) < f (s.rcs x) →
      ∑ v ∈ s.varSet, f ((setRc x r s).rcs v) < ∑ v ∈ s.varSet, f (s.rcs v) := by
    intro f hf
    refine Finset.sum_lt_sum (fun v _ => ?_) ⟨x, hx', by rw [setRc_rcs]; exact hf⟩
    by_cases hv : v = x
    · subst hv; rw [setRc_rcs]; exact hf.le
    · rw [setRc_rcs_ne _ _ hv]
  have sumeq : ∀ f : RangeConstraint p → ℕ, f ((s.rcs x).conjunction r) = f (s.rcs x) →
      ∑ v ∈ s.varSet, f ((setRc x r s).rcs v) = ∑ v ∈ s.varSet, f (s.rcs v) := by
    intro f hf
    refine Finset.sum_congr rfl (fun v _ => ?_)
    by_cases hv : v = x
    · subst hv; rw [setRc_rcs]; exact hf
    · rw [setRc_rcs_ne _ _ hv]
  unfold measure
  rw [Prod.Lex.toLex_lt_toLex]
  refine Or.inr ⟨rfl, ?_⟩
  rw [Prod.Lex.toLex_lt_toLex]
  refine Or.inr ⟨rfl, ?_⟩
  unfold ranges
  rw [Prod.Lex.toLex_lt_toLex]
  show (∑ v ∈ s.varSet, _ < _) ∨ _
  rcases RangeConstraint.conjunction_decreases _ _ hne with h | ⟨h, h'⟩ | ⟨h, h', h''⟩
  · exact Or.inl (sumlt _ h)
  · refine Or.inr ⟨sumeq _ h, ?_⟩
    rw [Prod.Lex.toLex_lt_toLex]
    exact Or.inl (sumlt (fun r => r.mask) h')
  · refine Or.inr ⟨sumeq _ h, ?_⟩
    rw [Prod.Lex.toLex_lt_toLex]
    exact Or.inr ⟨sumeq (fun r => r.mask) h', sumlt (fun r => r.min.val) h''⟩

/-- Changing the range constraint of another variable. -/
theorem measure_setRc_of_not_mem {x : SVar V} {r : RangeConstraint p}
    (hx : x ∉ s.cs.ix.sys.vars) : measure O (setRc x r s) = measure O s := by
  have : ∀ v ∈ s.varSet, (setRc x r s).rcs v = s.rcs v := fun v hv =>
    setRc_rcs_ne _ _ fun h => hx (h ▸ List.mem_toFinset.1 hv)
  have h1 : ranges (setRc x r s) = ranges s := by
    unfold ranges
    have key : ∀ f : RangeConstraint p → ℕ, ∑ v ∈ s.varSet, f ((setRc x r s).rcs v) =
        ∑ v ∈ s.varSet, f (s.rcs v) := fun f =>
      Finset.sum_congr rfl fun v hv => by rw [this v hv]
    have e1 := key RangeConstraint.width
    have e2 := key fun r => r.mask
    have e3 := key fun r => r.min.val
    show toLex (∑ v ∈ s.varSet, _, toLex (∑ v ∈ s.varSet, _, ∑ v ∈ s.varSet, _)) = _
    rw [e1, e2, e3]
  unfold measure
  rw [h1]
  rfl

end Solver

end Verif
