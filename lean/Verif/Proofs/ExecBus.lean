import Verif.Spec.ExecBus
import Mathlib.Tactic.Ring
import Mathlib.Tactic.LinearCombination

/-! # Proofs about the execution bus optimisation -/

namespace Verif

section
variable {T R : Type}

/-- The pairs of a list read two by two. -/
def twoByTwo {α : Type} : List α → List (α × α)
  | s :: r :: t => (s, r) :: twoByTwo t
  | [_] => []
  | [] => []

/-- The last element at an even position. -/
def lastEven {α : Type} : Option α → List α → Option α
  | _, s :: _ :: t => lastEven (some s) t
  | _, [s] => some s
  | l, [] => l

theorem mem_twoByTwo {α : Type} : ∀ (l : List α) (x : α × α),
    x ∈ twoByTwo l ↔ ∃ k, l[2 * k]? = some x.1 ∧ l[2 * k + 1]? = some x.2
  | [], x => by simp [twoByTwo]
  | [a], x => by simp [twoByTwo]
  | a :: b :: t, x => by
    rw [twoByTwo, List.mem_cons, mem_twoByTwo t]
    constructor
    · rintro (rfl | ⟨k, h1, h2⟩)
      · exact ⟨0, by simp⟩
      · refine ⟨k + 1, ?_, ?_⟩
        · rw [show 2 * (k + 1) = 2 * k + 2 by ring]; simpa using h1
        · rw [show 2 * (k + 1) + 1 = 2 * k + 1 + 2 by ring]; simpa using h2
    · rintro ⟨k, h1, h2⟩
      cases k with
      | zero => left; simp at h1 h2; rw [h1, h2]
      | succ k =>
        right
        rw [show 2 * (k + 1) = 2 * k + 2 by ring] at h1
        rw [show 2 * (k + 1) + 1 = 2 * k + 1 + 2 by ring] at h2
        exact ⟨k, by simpa using h1, by simpa using h2⟩

theorem lastEven_eq {α : Type} : ∀ (l : List α) (o : Option α), l ≠ [] →
    lastEven o l = l[2 * ((l.length - 1) / 2)]?
  | [], _, h => absurd rfl h
  | [a], o, _ => by simp [lastEven]
  | [a, b], o, _ => by simp [lastEven]
  | a :: b :: c :: t, o, _ => by
    rw [lastEven, lastEven_eq (c :: t) (some a) (by simp)]
    simp only [List.length_cons, Nat.add_sub_cancel]
    rw [show 2 * ((t.length + 1 + 1) / 2) = 2 * (t.length / 2) + 2 by omega]
    simp

/-- The equalities added for a send and the following receive. -/
def stateEqualities (x : SymBus T R × SymBus T R) : List (AlgExpr T R) :=
  (x.2.args.zip x.1.args).map fun y => (AlgExpr.binary y.1 .sub y.2).toConstraint

/-- The result for the interactions `l` with the execution bus, starting with a send. -/
def cancelStates (kept l : List (SymBus T R)) (o : Option (SymBus T R)) :
    Except Panic (List (SymBus T R) × List (AlgExpr T R) × Option (SymBus T R)) :=
  if ∀ x ∈ twoByTwo l, x.2.args.length = x.1.args.length then
    .ok (kept, (twoByTwo l).flatMap stateEqualities, lastEven o l)
  else .error .assertion

theorem execBusRetain_true (execBus : ℕ) : ∀ (l : List (SymBus T R)),
    (∀ o, execBusRetain execBus l true false o =
      cancelStates (l.filter fun b => b.id ≠ execBus) (l.filter fun b => b.id = execBus) o) ∧
    (∀ s, execBusRetain execBus l true true (some s) =
      cancelStates (l.filter fun b => b.id ≠ execBus) (s :: l.filter fun b => b.id = execBus) none)
  | [] => by simp [execBusRetain, twoByTwo, lastEven, cancelStates]
  | b :: t => by
    obtain ⟨ih1, ih2⟩ := execBusRetain_true execBus t
    by_cases hb : b.id = execBus
    · have e1 : ((b :: t).filter fun b => b.id = execBus) =
          b :: t.filter fun b => b.id = execBus := by simp [hb]
      have e2 : ((b :: t).filter fun b => b.id ≠ execBus) =
          t.filter fun b => b.id ≠ execBus := by simp [hb]
      have e3 : ∀ (o : Option (SymBus T R)) (s : SymBus T R) l,
          lastEven o (s :: l) = lastEven none (s :: l) := by
        intro o s l
        cases l <;> rfl
      constructor
      · intro o
        rw [execBusRetain.eq_def, e1, e2]
        simp only [ne_eq, hb, not_true_eq_false, if_false, Bool.not_true, Bool.false_eq_true,
          Bool.not_false, if_true]
        rw [ih2 b, cancelStates, cancelStates, e3 o]
      · intro s
        rw [execBusRetain.eq_def, e1, e2]
        simp only [ne_eq, hb, not_true_eq_false, if_false, Bool.not_true, Bool.false_eq_true]
        rw [ih1]
        simp only [cancelStates, twoByTwo, List.mem_cons, forall_eq_or_imp, List.flatMap_cons,
          lastEven]
        by_cases hl : b.args.length = s.args.length
        · by_cases h2 : ∀ x ∈ twoByTwo (t.filter fun b => b.id = execBus),
            x.2.args.length = x.1.args.length
          · rw [if_neg (not_not.2 hl), if_pos (⟨hl, h2⟩ : _ ∧ _), if_pos h2]
            simp [stateEqualities, pure, Except.pure, bind, Except.bind]
          · rw [if_neg (not_not.2 hl), if_neg (fun h : _ ∧ _ => h2 h.2), if_neg h2]
            rfl
        · rw [if_pos hl, if_neg (fun h : _ ∧ _ => hl h.1)]
    · have e1 : ((b :: t).filter fun b => b.id = execBus) =
          t.filter fun b => b.id = execBus := by simp [hb]
      have e2 : ((b :: t).filter fun b => b.id ≠ execBus) =
          b :: t.filter fun b => b.id ≠ execBus := by simp [hb]
      constructor
      · intro o
        rw [execBusRetain.eq_def, e1, e2]
        simp only
        rw [if_pos hb, ih1, cancelStates, cancelStates]
        split_ifs <;> simp [pure, Except.pure, bind, Except.bind]
      · intro s
        rw [execBusRetain.eq_def, e1, e2]
        simp only
        rw [if_pos hb, ih2, cancelStates, cancelStates]
        split_ifs <;> simp [pure, Except.pure, bind, Except.bind]

/-- The first interaction is kept in place. -/
theorem execBusRetain_false (execBus : ℕ) : ∀ (l : List (SymBus T R)),
    (l.filter fun b => b.id = execBus) = [] ∧ execBusRetain execBus l false true none =
      .ok (l, [], none) ∨
    ∃ l1 r l2, l = l1 ++ r :: l2 ∧ (∀ b ∈ l1, b.id ≠ execBus) ∧ r.id = execBus ∧
      execBusRetain execBus l false true none =
        cancelStates (l1 ++ r :: l2.filter fun b => b.id ≠ execBus)
          (l2.filter fun b => b.id = execBus) none
  | [] => by left; simp [execBusRetain]
  | b :: t => by
    by_cases hb : b.id = execBus
    · right
      refine ⟨[], b, t, rfl, by simp, hb, ?_⟩
      rw [execBusRetain.eq_def]
      simp only [ne_eq, hb, not_true_eq_false, if_false, Bool.not_true, Bool.not_false, if_true]
      rw [(execBusRetain_true execBus t).1, cancelStates, cancelStates]
      split_ifs <;> simp [pure, Except.pure, bind, Except.bind]
    · rcases execBusRetain_false execBus t with ⟨h1, h2⟩ | ⟨l1, r, l2, h1, h2, h3, h4⟩
      · left
        rw [execBusRetain.eq_def]
        simp only
        rw [if_pos hb, h2]
        refine ⟨by simpa [hb] using h1, ?_⟩
        simp [pure, Except.pure, bind, Except.bind]
      · right
        refine ⟨b :: l1, r, l2, by simp [h1], ?_, h3, ?_⟩
        · intro x hx
          rcases List.mem_cons.1 hx with rfl | hx
          · exact hb
          · exact h2 x hx
        · rw [execBusRetain.eq_def]
          simp only
          rw [if_pos hb, h4, cancelStates, cancelStates]
          split_ifs <;> simp [pure, Except.pure, bind, Except.bind]

/-- The whole optimisation. -/
theorem optimizeExecBus_ok {m m' : SymMachine T R} {execBus : ℕ}
    (h : optimizeExecBus m execBus = .ok m') :
    ∃ l1 r l2 s, m.bus = l1 ++ r :: l2 ∧ (∀ b ∈ l1, b.id ≠ execBus) ∧ r.id = execBus ∧
      m.onBus execBus = r :: (l2.filter fun b => b.id = execBus) ∧
      (∀ x ∈ twoByTwo (l2.filter fun b => b.id = execBus), x.2.args.length = x.1.args.length) ∧
      lastEven none (l2.filter fun b => b.id = execBus) = some s ∧
      m'.bus = l1 ++ r :: (l2.filter fun b => b.id ≠ execBus) ++ [s] ∧
      m'.constraints = m.constraints ++
        (twoByTwo (l2.filter fun b => b.id = execBus)).flatMap stateEqualities ∧
      m'.derived = m.derived := by
  rcases execBusRetain_false execBus m.bus with ⟨h1, h2⟩ | ⟨l1, r, l2, h1, h2, h3, h4⟩
  · rw [optimizeExecBus, h2] at h
    cases h
  · rw [optimizeExecBus, h4, cancelStates] at h
    refine ⟨l1, r, l2, ?_⟩
    split_ifs at h with hl
    · cases hs : lastEven none (l2.filter fun b => b.id = execBus) with
      | none => simp [hs, bind, Except.bind] at h
      | some s =>
        simp only [hs, bind, Except.bind, pure, Except.pure, Except.ok.injEq] at h
        refine ⟨s, h1, h2, h3, ?_, hl, rfl, ?_⟩
        · rw [SymMachine.onBus, h1, List.filter_append, List.filter_cons_of_pos (by simpa using h3),
            List.filter_eq_nil_iff.2 (by simpa using h2), List.nil_append]
        · subst h
          simp
    · cases h

end

end Verif
