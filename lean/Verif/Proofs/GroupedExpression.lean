import Verif.Spec.Eval
import Verif.Proofs.RangeConstraint
import Mathlib.Algebra.BigOperators.Group.List.Basic
import Mathlib.Tactic.Ring
import Mathlib.Tactic.LinearCombination

/-! Helper lemmas about grouped expressions. -/

namespace Verif.GExpr

set_option linter.unusedSectionVars false

variable {p : ℕ} {V : Type}

/-- Induction over expressions with the hypothesis for all factors. -/
theorem ind {P : GExpr p V → Prop}
    (h : ∀ q l c, (∀ ab ∈ q, P ab.1 ∧ P ab.2) → P (mk q l c)) (e : GExpr p V) : P e := by
  refine GExpr.rec (motive_1 := P) (motive_2 := fun q => ∀ ab ∈ q, P ab.1 ∧ P ab.2)
    (motive_3 := fun ab => P ab.1 ∧ P ab.2) ?_ ?_ ?_ ?_ e
  · intro q l c hq; exact h q l c hq
  · intro ab hab; cases hab
  · intro hd tl h1 h2 ab hab
    rcases List.mem_cons.1 hab with rfl | hab
    · exact h1
    · exact h2 ab hab
  · intro a b ha hb; exact ⟨ha, hb⟩

theorem mk_eta (e : GExpr p V) : mk e.quadratic e.linear e.constant = e := by cases e; rfl

theorem tryToKnown_eq_some {e : GExpr p V} {k : ZMod p} :
    e.tryToKnown = some k ↔ e = mk [] [] k := by
  rcases e with ⟨q, l, c⟩
  cases q <;> cases l <;> simp [tryToKnown]

theorem tryToKnown_eq_none {e : GExpr p V} :
    e.tryToKnown = none ↔ ¬ ∃ k, e = mk [] [] k := by
  rcases e with ⟨q, l, c⟩
  cases q <;> cases l <;> simp [tryToKnown]

theorem tryToKnown_none_iff {e : GExpr p V} :
    e.tryToKnown = none ↔ e.quadratic ≠ [] ∨ e.linear ≠ [] := by
  rcases e with ⟨q, l, c⟩
  cases q <;> cases l <;> simp [tryToKnown, quadratic, linear]

/-! ### Loops over quadratic terms as list functions -/

theorem negQ_eq (q : List (GExpr p V × GExpr p V)) : negQ q = q.map fun ab => (neg ab.1, ab.2) := by
  induction q with
  | nil => simp [negQ]
  | cons ab t ih => obtain ⟨a, b⟩ := ab; simp [negQ, ih]

theorem scaleQ_eq (k : ZMod p) (q : List (GExpr p V × GExpr p V)) :
    scaleQ k q = q.map fun ab => (scale k ab.1, ab.2) := by
  induction q with
  | nil => simp [scaleQ]
  | cons ab t ih => obtain ⟨a, b⟩ := ab; simp [scaleQ, ih]

theorem removeFirst_perm {α : Type} {f : α → Bool} {l l' : List α}
    (h : removeFirst f l = some l') : ∃ a, f a = true ∧ l.Perm (a :: l') := by
  induction l generalizing l' with
  | nil => simp [removeFirst] at h
  | cons b t ih =>
    unfold removeFirst at h
    split at h
    · rename_i hb
      simp only [Option.some.injEq] at h
      subst h
      exact ⟨b, hb, List.Perm.refl _⟩
    · rw [Option.map_eq_some_iff] at h
      obtain ⟨t', ht', rfl⟩ := h
      obtain ⟨a, ha, hp⟩ := ih ht'
      exact ⟨a, ha, (hp.cons b).trans (List.Perm.swap a b t')⟩

/-! ### Evaluation -/

section Eval
variable {R : Type} [CommRing R] (φ : ZMod p →+* R) (σ : V → R)

/-- Value of the linear part. -/
def evalL (l : List (V × ZMod p)) : R := (l.map fun e => φ e.2 * σ e.1).sum

theorem evalIn_mk (q : List (GExpr p V × GExpr p V)) (l : List (V × ZMod p)) (c : ZMod p) :
    evalIn φ σ (mk q l c) = evalInQ φ σ q + evalL φ σ l + φ c := by
  simp [evalIn, evalL]

theorem evalInQ_eq (q : List (GExpr p V × GExpr p V)) :
    evalInQ φ σ q = (q.map fun ab => evalIn φ σ ab.1 * evalIn φ σ ab.2).sum := by
  induction q with
  | nil => simp [evalInQ]
  | cons ab t ih => obtain ⟨a, b⟩ := ab; simp [evalInQ, ih]

theorem evalInQ_nil : evalInQ φ σ ([] : List (GExpr p V × GExpr p V)) = 0 := by simp [evalInQ]

theorem evalInQ_cons (ab : GExpr p V × GExpr p V) (t : List (GExpr p V × GExpr p V)) :
    evalInQ φ σ (ab :: t) = evalIn φ σ ab.1 * evalIn φ σ ab.2 + evalInQ φ σ t := by
  simp [evalInQ_eq]

theorem evalInQ_append (q r : List (GExpr p V × GExpr p V)) :
    evalInQ φ σ (q ++ r) = evalInQ φ σ q + evalInQ φ σ r := by
  simp [evalInQ_eq]

theorem evalInQ_perm {q r : List (GExpr p V × GExpr p V)} (h : q.Perm r) :
    evalInQ φ σ q = evalInQ φ σ r := by
  rw [evalInQ_eq, evalInQ_eq]; exact (h.map _).sum_eq

theorem evalL_nil : evalL φ σ ([] : List (V × ZMod p)) = 0 := by simp [evalL]

theorem evalL_cons (e : V × ZMod p) (t : List (V × ZMod p)) :
    evalL φ σ (e :: t) = φ e.2 * σ e.1 + evalL φ σ t := by simp [evalL]

theorem evalL_filter_ne (l : List (V × ZMod p)) :
    evalL φ σ (l.filter fun e => e.2 ≠ 0) = evalL φ σ l := by
  induction l with
  | nil => simp
  | cons e t ih =>
    by_cases h : e.2 = 0
    · rw [List.filter_cons_of_neg (by simpa using h), evalL_cons, h, ih]; simp
    · rw [List.filter_cons_of_pos (by simpa using h), evalL_cons, evalL_cons, ih]

theorem evalIn_const (c : ZMod p) : evalIn φ σ (const c : GExpr p V) = φ c := by
  simp [const, evalIn_mk, evalInQ_nil, evalL_nil]

theorem evalIn_zero : evalIn φ σ (zero : GExpr p V) = 0 := by
  simp [zero, evalIn_mk, evalInQ_nil, evalL_nil]

theorem evalIn_one : evalIn φ σ (one : GExpr p V) = 1 := by
  simp [one, evalIn_mk, evalInQ_nil, evalL_nil]

theorem evalIn_var (v : V) : evalIn φ σ (var v : GExpr p V) = σ v := by
  simp [var, evalIn_mk, evalInQ_nil, evalL_nil, evalL_cons]

theorem evalIn_ofLinear (v : V) (c : ZMod p) :
    evalIn φ σ (ofLinear v c : GExpr p V) = φ c * σ v := by
  simp [ofLinear, evalIn_mk, evalInQ_nil, evalL_nil, evalL_cons]

theorem evalIn_ofQuadratic (a b : GExpr p V) :
    evalIn φ σ (ofQuadratic a b) = evalIn φ σ a * evalIn φ σ b := by
  simp [ofQuadratic, evalIn_mk, evalInQ_nil, evalL_nil, evalInQ_cons]

theorem evalIn_of_tryToKnown {e : GExpr p V} {k : ZMod p} (h : e.tryToKnown = some k) :
    evalIn φ σ e = φ k := by
  rw [tryToKnown_eq_some] at h
  subst h
  exact evalIn_const φ σ k

theorem evalIn_neg (e : GExpr p V) : evalIn φ σ (neg e) = - evalIn φ σ e := by
  induction e using ind with
  | h q l c ih =>
    rw [neg, negQ_eq, evalIn_mk, evalIn_mk]
    have h1 : evalInQ φ σ (q.map fun ab => (neg ab.1, ab.2)) = - evalInQ φ σ q := by
      clear l c
      induction q with
      | nil => simp [evalInQ_nil]
      | cons ab t iht =>
        rw [List.map_cons, evalInQ_cons, evalInQ_cons, iht fun x hx => ih x (List.mem_cons_of_mem _ hx)]
        simp only [(ih ab List.mem_cons_self).1]
        ring
    have h2 : evalL φ σ (l.map fun (v, k) => (v, -k)) = - evalL φ σ l := by
      induction l with
      | nil => simp [evalL_nil]
      | cons e t iht => rw [List.map_cons, evalL_cons, evalL_cons, iht]; simp; ring
    rw [h1, h2, map_neg]; ring

theorem evalIn_scale (k : ZMod p) (e : GExpr p V) :
    evalIn φ σ (scale k e) = φ k * evalIn φ σ e := by
  induction e using ind with
  | h q l c ih =>
    rw [scale, scaleQ_eq]
    split
    · rename_i hk; subst hk; rw [evalIn_zero]; simp
    · rw [evalIn_mk, evalIn_mk]
      have h1 : evalInQ φ σ (q.map fun ab => (scale k ab.1, ab.2)) = φ k * evalInQ φ σ q := by
        clear l c
        induction q with
        | nil => simp [evalInQ_nil]
        | cons ab t iht =>
          rw [List.map_cons, evalInQ_cons, evalInQ_cons,
            iht fun x hx => ih x (List.mem_cons_of_mem _ hx)]
          simp only [(ih ab List.mem_cons_self).1]
          ring
      have h2 : evalL φ σ (l.map fun (v, d) => (v, d * k)) = φ k * evalL φ σ l := by
        induction l with
        | nil => simp [evalL_nil]
        | cons e t iht => rw [List.map_cons, evalL_cons, evalL_cons, iht]; simp; ring
      rw [h1, h2, map_mul]; ring

theorem quadraticTermsAddToZero_sound [DecidableEq V] {f s : GExpr p V × GExpr p V}
    (h : quadraticTermsAddToZero f s = true) :
    evalIn φ σ f.1 * evalIn φ σ f.2 + evalIn φ σ s.1 * evalIn φ σ s.2 = 0 := by
  unfold quadraticTermsAddToZero at h
  obtain ⟨f1, f2⟩ := f
  obtain ⟨s1, s2⟩ := s
  simp only [Bool.or_eq_true, decide_eq_true_eq, Prod.mk.injEq] at h
  rcases h with (⟨h1, h2⟩ | ⟨h1, h2⟩) | (⟨h1, h2⟩ | ⟨h1, h2⟩) <;> subst h1 <;> subst h2 <;>
    simp only [evalIn_neg] <;> ring

theorem evalInQ_combineLoop [DecidableEq V] (a b : List (GExpr p V × GExpr p V)) :
    evalInQ φ σ (combineLoop a b) = evalInQ φ σ a + evalInQ φ σ b := by
  induction a generalizing b with
  | nil => simp [combineLoop, evalInQ_nil]
  | cons f t ih =>
    unfold combineLoop
    split
    · rename_i b' hb
      obtain ⟨s, hs, hp⟩ := removeFirst_perm hb
      rw [ih, evalInQ_cons, evalInQ_perm φ σ hp, evalInQ_cons]
      have := quadraticTermsAddToZero_sound φ σ hs
      linear_combination (-1 : R) * this
    · rw [evalInQ_cons, ih, evalInQ_cons]; ring

theorem evalInQ_combineRemovingZeros [DecidableEq V] (a b : List (GExpr p V × GExpr p V)) :
    evalInQ φ σ (combineRemovingZeros a b) = evalInQ φ σ a + evalInQ φ σ b := by
  unfold combineRemovingZeros
  split
  · exact evalInQ_append φ σ a b
  · exact evalInQ_combineLoop φ σ a b

theorem evalInQ_removePairs [DecidableEq V] (n : ℕ) (a : List (GExpr p V × GExpr p V)) :
    evalInQ φ σ (removePairs n a) = evalInQ φ σ a := by
  induction n generalizing a with
  | zero => simp [removePairs]
  | succ n ih =>
    cases a with
    | nil => simp [removePairs]
    | cons f t =>
      unfold removePairs
      split
      · rename_i b' hb
        obtain ⟨s, hs, hp⟩ := removeFirst_perm hb
        rw [ih, evalInQ_cons, evalInQ_perm φ σ hp, evalInQ_cons]
        have := quadraticTermsAddToZero_sound φ σ hs
        linear_combination (-1 : R) * this
      · rw [evalInQ_cons, ih, evalInQ_cons]

theorem evalInQ_removeQuadraticTermsAddingToZero [DecidableEq V]
    (a : List (GExpr p V × GExpr p V)) :
    evalInQ φ σ (removeQuadraticTermsAddingToZero a) = evalInQ φ σ a := by
  unfold removeQuadraticTermsAddingToZero
  split
  · rfl
  · exact evalInQ_removePairs φ σ _ a

variable [LinearOrder V]

theorem evalL_addEntry (x : V) (c : ZMod p) (l : List (V × ZMod p)) :
    evalL φ σ (Linear.addEntry x c l) = evalL φ σ l + φ c * σ x := by
  induction l with
  | nil => simp [Linear.addEntry, evalL_nil, evalL_cons]
  | cons e t ih =>
    obtain ⟨w, d⟩ := e
    unfold Linear.addEntry
    split
    · rename_i h; subst h; simp only [evalL_cons, map_add]; ring
    · split
      · simp only [evalL_cons]; ring
      · simp only [evalL_cons, ih]; ring

theorem evalL_foldl_addEntry (l m : List (V × ZMod p)) :
    evalL φ σ (m.foldl (fun l e => Linear.addEntry e.1 e.2 l) l) = evalL φ σ l + evalL φ σ m := by
  induction m generalizing l with
  | nil => simp [evalL_nil]
  | cons e t ih => rw [List.foldl_cons, ih, evalL_addEntry, evalL_cons]; ring

theorem evalIn_add (a b : GExpr p V) :
    evalIn φ σ (add a b) = evalIn φ σ a + evalIn φ σ b := by
  rcases a with ⟨q, l, c⟩
  rcases b with ⟨q', l', c'⟩
  simp only [add, quadratic, linear, constant, evalIn_mk, evalInQ_combineRemovingZeros,
    evalL_filter_ne, evalL_foldl_addEntry, map_add]
  ring

theorem evalIn_sub (a b : GExpr p V) :
    evalIn φ σ (sub a b) = evalIn φ σ a - evalIn φ σ b := by
  rw [sub, evalIn_add, evalIn_neg]; ring

theorem evalIn_mul (a b : GExpr p V) :
    evalIn φ σ (mul a b) = evalIn φ σ a * evalIn φ σ b := by
  unfold mul
  split
  · rename_i k hk
    rw [evalIn_scale, evalIn_of_tryToKnown φ σ hk]; ring
  · split
    · rename_i k hk
      rw [evalIn_scale, evalIn_of_tryToKnown φ σ hk]
    · exact evalIn_ofQuadratic φ σ a b

theorem evalIn_foldl_add (l : List (GExpr p V)) (a : GExpr p V) :
    evalIn φ σ (l.foldl add a) = evalIn φ σ a + (l.map (evalIn φ σ)).sum := by
  induction l generalizing a with
  | nil => simp
  | cons e t ih => rw [List.foldl_cons, ih, evalIn_add]; simp; ring

theorem evalIn_sum (l : List (GExpr p V)) :
    evalIn φ σ (sum l) = (l.map (evalIn φ σ)).sum := by
  rw [sum, evalIn_foldl_add, evalIn_zero]; simp

end Eval

/-! ### Variables -/

theorem varsQ_eq (q : List (GExpr p V × GExpr p V)) :
    varsQ q = q.flatMap fun ab => vars ab.1 ++ vars ab.2 := by
  induction q with
  | nil => simp [varsQ]
  | cons ab t ih => obtain ⟨a, b⟩ := ab; simp [varsQ, ih]

theorem mem_vars_mk {x : V} {q : List (GExpr p V × GExpr p V)} {l : List (V × ZMod p)}
    {c : ZMod p} :
    x ∈ vars (mk q l c) ↔ (∃ ab ∈ q, x ∈ vars ab.1 ∨ x ∈ vars ab.2) ∨ ∃ k, (x, k) ∈ l := by
  simp [vars, varsQ_eq]

theorem mem_varsQ {x : V} {q : List (GExpr p V × GExpr p V)} :
    x ∈ varsQ q ↔ ∃ ab ∈ q, x ∈ vars ab.1 ∨ x ∈ vars ab.2 := by
  simp [varsQ_eq]

theorem mem_vars_iff_occurs {x : V} {e : GExpr p V} : x ∈ vars e ↔ Occurs x e := by
  induction e using ind with
  | h q l c ih =>
    rw [mem_vars_mk]
    constructor
    · rintro (⟨ab, hab, h | h⟩ | ⟨k, hk⟩)
      · exact Occurs.left _ _ _ ab.1 ab.2 hab ((ih ab hab).1.1 h)
      · exact Occurs.right _ _ _ ab.1 ab.2 hab ((ih ab hab).2.1 h)
      · exact Occurs.linear _ _ _ k hk
    · intro h
      cases h with
      | linear _ _ _ k hk => exact Or.inr ⟨_, hk⟩
      | left _ _ _ a b hab h => exact Or.inl ⟨_, hab, Or.inl ((ih _ hab).1.2 h)⟩
      | right _ _ _ a b hab h => exact Or.inl ⟨_, hab, Or.inr ((ih _ hab).2.2 h)⟩

section
variable {R : Type} [CommRing R] (φ : ZMod p →+* R)

theorem evalL_congr {σ τ : V → R} {l : List (V × ZMod p)} (h : ∀ e ∈ l, σ e.1 = τ e.1) :
    evalL φ σ l = evalL φ τ l := by
  induction l with
  | nil => simp [evalL_nil]
  | cons e t ih =>
    rw [evalL_cons, evalL_cons, h e List.mem_cons_self,
      ih fun x hx => h x (List.mem_cons_of_mem _ hx)]

theorem evalIn_congr {σ τ : V → R} {e : GExpr p V} (h : ∀ v ∈ vars e, σ v = τ v) :
    evalIn φ σ e = evalIn φ τ e := by
  induction e using ind with
  | h q l c ih =>
    rw [evalIn_mk, evalIn_mk]
    have h1 : evalInQ φ σ q = evalInQ φ τ q := by
      rw [evalInQ_eq, evalInQ_eq]
      congr 1
      apply List.map_congr_left
      intro ab hab
      rw [(ih ab hab).1 fun v hv => h v (mem_vars_mk.2 (Or.inl ⟨ab, hab, Or.inl hv⟩)),
        (ih ab hab).2 fun v hv => h v (mem_vars_mk.2 (Or.inl ⟨ab, hab, Or.inr hv⟩))]
    rw [h1, evalL_congr φ fun e he => h e.1 (mem_vars_mk.2 (Or.inr ⟨e.2, he⟩))]
end

theorem vars_neg (e : GExpr p V) : vars (neg e) = vars e := by
  induction e using ind with
  | h q l c ih =>
    rw [neg, negQ_eq, vars, vars, varsQ_eq, varsQ_eq]
    congr 1
    · rw [List.flatMap_map]
      apply List.flatMap_congr
      intro ab hab
      simp only [(ih ab hab).1]
    · simp [Function.comp_def]

theorem vars_zero : vars (zero : GExpr p V) = [] := by simp [zero, vars, varsQ]
theorem vars_const (c : ZMod p) : vars (const c : GExpr p V) = [] := by simp [const, vars, varsQ]
theorem vars_var (v : V) : vars (var v : GExpr p V) = [v] := by simp [var, vars, varsQ]
theorem vars_known {e : GExpr p V} {k : ZMod p} (h : e.tryToKnown = some k) : vars e = [] := by
  rw [tryToKnown_eq_some] at h; subst h; exact vars_const k

theorem vars_scale_subset (k : ZMod p) (e : GExpr p V) : vars (scale k e) ⊆ vars e := by
  induction e using ind with
  | h q l c ih =>
    rw [scale, scaleQ_eq]
    split
    · rw [vars_zero]; exact List.nil_subset _
    · intro x hx
      rw [mem_vars_mk] at hx ⊢
      rcases hx with ⟨ab, hab, h⟩ | ⟨d, hd⟩
      · rw [List.mem_map] at hab
        obtain ⟨ab', hab', rfl⟩ := hab
        refine Or.inl ⟨ab', hab', ?_⟩
        exact h.imp (fun h => (ih ab' hab').1 h) id
      · rw [List.mem_map] at hd
        obtain ⟨⟨v, d'⟩, he, hh⟩ := hd
        simp only [Prod.mk.injEq] at hh
        obtain ⟨rfl, -⟩ := hh
        exact Or.inr ⟨_, he⟩

theorem combineLoop_subset [DecidableEq V] (a b : List (GExpr p V × GExpr p V)) :
    combineLoop a b ⊆ a ++ b := by
  induction a generalizing b with
  | nil => simp [combineLoop]
  | cons f t ih =>
    unfold combineLoop
    split
    · rename_i b' hb
      obtain ⟨s, hs, hp⟩ := removeFirst_perm hb
      intro x hx
      have := ih _ hx
      rw [List.mem_append] at this
      rcases this with h | h
      · simp [h]
      · simp [hp.mem_iff, h]
    · intro x hx
      rcases List.mem_cons.1 hx with rfl | hx
      · simp
      · have := ih _ hx
        simp only [List.cons_append, List.mem_cons]
        exact Or.inr this

theorem combineRemovingZeros_subset [DecidableEq V] (a b : List (GExpr p V × GExpr p V)) :
    combineRemovingZeros a b ⊆ a ++ b := by
  unfold combineRemovingZeros
  split
  · exact fun _ h => h
  · exact combineLoop_subset a b

theorem removePairs_subset [DecidableEq V] (n : ℕ) (a : List (GExpr p V × GExpr p V)) :
    removePairs n a ⊆ a := by
  induction n generalizing a with
  | zero => simp [removePairs]
  | succ n ih =>
    cases a with
    | nil => simp [removePairs]
    | cons f t =>
      unfold removePairs
      split
      · rename_i b' hb
        obtain ⟨s, hs, hp⟩ := removeFirst_perm hb
        intro x hx
        have := ih _ hx
        simp [hp.mem_iff, this]
      · intro x hx
        rcases List.mem_cons.1 hx with rfl | hx
        · simp
        · exact List.mem_cons_of_mem _ (ih _ hx)

theorem removeQuadraticTermsAddingToZero_subset [DecidableEq V]
    (a : List (GExpr p V × GExpr p V)) : removeQuadraticTermsAddingToZero a ⊆ a := by
  unfold removeQuadraticTermsAddingToZero
  split
  · exact fun _ h => h
  · exact removePairs_subset _ a

section Ordered
variable [LinearOrder V]

theorem mem_addEntry {x y : V} {c d : ZMod p} {l : List (V × ZMod p)}
    (h : (y, d) ∈ Linear.addEntry x c l) : y = x ∨ (y, d) ∈ l := by
  induction l with
  | nil => simp [Linear.addEntry] at h; exact Or.inl h.1
  | cons e t ih =>
    obtain ⟨w, k⟩ := e
    unfold Linear.addEntry at h
    split at h
    · rename_i hx
      rcases List.mem_cons.1 h with h | h
      · simp only [Prod.mk.injEq] at h; exact Or.inl (h.1.trans hx.symm)
      · exact Or.inr (List.mem_cons_of_mem _ h)
    · split at h
      · rcases List.mem_cons.1 h with h | h
        · simp only [Prod.mk.injEq] at h; exact Or.inl h.1
        · exact Or.inr h
      · rcases List.mem_cons.1 h with h | h
        · exact Or.inr (by rw [h]; exact List.mem_cons_self)
        · exact (ih h).imp id (List.mem_cons_of_mem _)

theorem mem_keys_addEntry {x y : V} {c : ZMod p} {l : List (V × ZMod p)} :
    y ∈ (Linear.addEntry x c l).map (·.1) ↔ y = x ∨ y ∈ l.map (·.1) := by
  induction l with
  | nil => simp [Linear.addEntry]
  | cons e t ih =>
    obtain ⟨w, k⟩ := e
    unfold Linear.addEntry
    split
    · rename_i h; subst h; simp
    · split
      · simp
      · simp only [List.map_cons, List.mem_cons, ih]; tauto

theorem mem_keys_foldl {y : V} (m l : List (V × ZMod p)) :
    y ∈ (m.foldl (fun l e => Linear.addEntry e.1 e.2 l) l).map (·.1) ↔
      y ∈ l.map (·.1) ∨ y ∈ m.map (·.1) := by
  induction m generalizing l with
  | nil => simp
  | cons e t ih => rw [List.foldl_cons, ih, mem_keys_addEntry]; simp; tauto

theorem vars_add_subset (a b : GExpr p V) {x : V} (h : x ∈ vars (add a b)) :
    x ∈ vars a ∨ x ∈ vars b := by
  rcases a with ⟨q, l, c⟩
  rcases b with ⟨q', l', c'⟩
  simp only [add, quadratic, linear, constant] at h
  rw [mem_vars_mk] at h
  rw [mem_vars_mk, mem_vars_mk]
  rcases h with ⟨ab, hab, h⟩ | ⟨k, hk⟩
  · rcases List.mem_append.1 (combineRemovingZeros_subset _ _ hab) with h' | h'
    · exact Or.inl (Or.inl ⟨ab, h', h⟩)
    · exact Or.inr (Or.inl ⟨ab, h', h⟩)
  · have hk := (List.mem_filter.1 hk).1
    have := (mem_keys_foldl (y := x) l' l).1 (List.mem_map.2 ⟨_, hk, rfl⟩)
    rcases this with h | h <;> rw [List.mem_map] at h <;> obtain ⟨⟨v, k⟩, he, rfl⟩ := h
    · exact Or.inl (Or.inr ⟨k, he⟩)
    · exact Or.inr (Or.inr ⟨k, he⟩)

theorem vars_mul_subset (a b : GExpr p V) {x : V} (h : x ∈ vars (mul a b)) :
    x ∈ vars a ∨ x ∈ vars b := by
  unfold mul at h
  split at h
  · exact Or.inl (vars_scale_subset _ _ h)
  · split at h
    · exact Or.inr (vars_scale_subset _ _ h)
    · rw [mem_vars_mk] at h
      rcases h with ⟨ab, hab, h⟩ | ⟨k, hk⟩
      · simp only [List.mem_singleton] at hab; subst hab; exact h
      · cases hk

/-! ### Well-formedness -/

theorem wf_inv {q : List (GExpr p V × GExpr p V)} {l : List (V × ZMod p)} {c : ZMod p}
    (h : WF (mk q l c)) :
    (∀ ab ∈ q, WF ab.1 ∧ WF ab.2 ∧ ab.1.tryToKnown = none ∧ ab.2.tryToKnown = none) ∧
      (l.Pairwise fun e f => e.1 < f.1) ∧ ∀ e ∈ l, e.2 ≠ 0 := by
  cases h with
  | mk _ _ _ h1 h2 h3 h4 h5 h6 =>
    exact ⟨fun ab hab => ⟨h1 ab hab, h2 ab hab, tryToKnown_eq_none.2 (h3 ab hab),
      tryToKnown_eq_none.2 (h4 ab hab)⟩, h5, h6⟩

theorem wf_intro {q : List (GExpr p V × GExpr p V)} {l : List (V × ZMod p)} {c : ZMod p}
    (h : ∀ ab ∈ q, WF ab.1 ∧ WF ab.2 ∧ ab.1.tryToKnown = none ∧ ab.2.tryToKnown = none)
    (h5 : l.Pairwise fun e f => e.1 < f.1) (h6 : ∀ e ∈ l, e.2 ≠ 0) : WF (mk q l c) :=
  WF.mk _ _ _ (fun ab hab => (h ab hab).1) (fun ab hab => (h ab hab).2.1)
    (fun ab hab => tryToKnown_eq_none.1 (h ab hab).2.2.1)
    (fun ab hab => tryToKnown_eq_none.1 (h ab hab).2.2.2) h5 h6

theorem wf_const (c : ZMod p) : WF (const c : GExpr p V) :=
  wf_intro (by simp) List.Pairwise.nil (by simp)

theorem wf_zero : WF (zero : GExpr p V) := wf_const 0

theorem wf_one : WF (one : GExpr p V) := wf_const 1

theorem wf_ofLinear (v : V) {c : ZMod p} (hc : c ≠ 0) : WF (ofLinear v c : GExpr p V) :=
  wf_intro (by simp) (by simp) (by simpa using hc)

theorem wf_var [Fact p.Prime] (v : V) : WF (var v : GExpr p V) := wf_ofLinear v one_ne_zero

theorem tryToKnown_neg (e : GExpr p V) : (neg e).tryToKnown = none ↔ e.tryToKnown = none := by
  rcases e with ⟨q, l, c⟩
  rw [neg, negQ_eq]
  cases q <;> cases l <;> simp [tryToKnown]

theorem tryToKnown_scale {k : ZMod p} (hk : k ≠ 0) (e : GExpr p V) :
    (scale k e).tryToKnown = none ↔ e.tryToKnown = none := by
  rcases e with ⟨q, l, c⟩
  rw [scale, scaleQ_eq, if_neg hk]
  cases q <;> cases l <;> simp [tryToKnown]

theorem wf_neg {e : GExpr p V} (h : WF e) : WF (neg e) := by
  induction e using ind with
  | h q l c ih =>
    obtain ⟨h1, h2, h3⟩ := wf_inv h
    rw [neg, negQ_eq]
    refine wf_intro ?_ ?_ ?_
    · intro ab hab
      rw [List.mem_map] at hab
      obtain ⟨ab', hab', rfl⟩ := hab
      obtain ⟨w1, w2, w3, w4⟩ := h1 ab' hab'
      exact ⟨(ih ab' hab').1 w1, w2, (tryToKnown_neg _).2 w3, w4⟩
    · rw [List.pairwise_map]; exact h2
    · intro e he
      rw [List.mem_map] at he
      obtain ⟨e', he', rfl⟩ := he
      simpa using h3 e' he'

theorem wf_scale [Fact p.Prime] (k : ZMod p) {e : GExpr p V} (h : WF e) : WF (scale k e) := by
  induction e using ind with
  | h q l c ih =>
    obtain ⟨h1, h2, h3⟩ := wf_inv h
    rw [scale, scaleQ_eq]
    split
    · exact wf_zero
    · rename_i hk
      refine wf_intro ?_ ?_ ?_
      · intro ab hab
        rw [List.mem_map] at hab
        obtain ⟨ab', hab', rfl⟩ := hab
        obtain ⟨w1, w2, w3, w4⟩ := h1 ab' hab'
        exact ⟨(ih ab' hab').1 w1, w2, (tryToKnown_scale hk _).2 w3, w4⟩
      · rw [List.pairwise_map]; exact h2
      · intro e he
        rw [List.mem_map] at he
        obtain ⟨e', he', rfl⟩ := he
        exact mul_ne_zero (h3 e' he') hk

theorem pairwise_addEntry {x : V} {c : ZMod p} {l : List (V × ZMod p)}
    (h : l.Pairwise fun e f => e.1 < f.1) :
    (Linear.addEntry x c l).Pairwise fun e f => e.1 < f.1 := by
  induction l with
  | nil => simp [Linear.addEntry]
  | cons e t ih =>
    obtain ⟨w, k⟩ := e
    rw [List.pairwise_cons] at h
    unfold Linear.addEntry
    split
    · rw [List.pairwise_cons]; exact h
    · rename_i hne
      split
      · rename_i hlt
        rw [List.pairwise_cons, List.pairwise_cons]
        refine ⟨?_, h⟩
        intro f hf
        rcases List.mem_cons.1 hf with rfl | hf
        · exact hlt
        · exact lt_trans hlt (h.1 f hf)
      · rename_i hnlt
        rw [List.pairwise_cons]
        refine ⟨?_, ih h.2⟩
        intro f hf
        rcases mem_addEntry (y := f.1) (d := f.2) hf with h' | h'
        · simp only
          rw [h']
          exact lt_of_le_of_ne (not_lt.1 hnlt) (fun h => hne h.symm)
        · exact h.1 f h'

theorem pairwise_foldl_addEntry {m l : List (V × ZMod p)}
    (h : l.Pairwise fun e f => e.1 < f.1) :
    (m.foldl (fun l e => Linear.addEntry e.1 e.2 l) l).Pairwise fun e f => e.1 < f.1 := by
  induction m generalizing l with
  | nil => exact h
  | cons e t ih => exact ih (pairwise_addEntry h)

theorem wf_add {a b : GExpr p V} (ha : WF a) (hb : WF b) : WF (add a b) := by
  rcases a with ⟨q, l, c⟩
  rcases b with ⟨q', l', c'⟩
  obtain ⟨h1, h2, h3⟩ := wf_inv ha
  obtain ⟨h1', h2', h3'⟩ := wf_inv hb
  simp only [add, quadratic, linear, constant]
  refine wf_intro ?_ ?_ ?_
  · intro ab hab
    rcases List.mem_append.1 (combineRemovingZeros_subset _ _ hab) with h | h
    · exact h1 ab h
    · exact h1' ab h
  · exact List.Pairwise.filter _ (pairwise_foldl_addEntry h2)
  · intro e he
    simpa using (List.mem_filter.1 he).2

theorem wf_sub {a b : GExpr p V} (ha : WF a) (hb : WF b) : WF (sub a b) := wf_add ha (wf_neg hb)

theorem wf_mul [Fact p.Prime] {a b : GExpr p V} (ha : WF a) (hb : WF b) : WF (mul a b) := by
  unfold mul
  split
  · exact wf_scale _ ha
  · rename_i hb'
    split
    · exact wf_scale _ hb
    · rename_i ha'
      refine wf_intro ?_ List.Pairwise.nil (by simp)
      intro ab hab
      simp only [List.mem_singleton] at hab
      subst hab
      exact ⟨ha, hb, ha', hb'⟩

theorem wf_foldl_add {l : List (GExpr p V)} {a : GExpr p V} (ha : WF a)
    (hl : ∀ e ∈ l, WF e) : WF (l.foldl add a) := by
  induction l generalizing a with
  | nil => exact ha
  | cons e t ih =>
    exact ih (wf_add ha (hl e List.mem_cons_self)) fun x hx => hl x (List.mem_cons_of_mem _ hx)

theorem wf_sum {l : List (GExpr p V)} (hl : ∀ e ∈ l, WF e) : WF (sum l) :=
  wf_foldl_add wf_zero hl

/-! ### Substitution -/

theorem lookup_eq_some_mem {x : V} {k : ZMod p} {l : List (V × ZMod p)}
    (h : Linear.lookup x l = some k) : (x, k) ∈ l := by
  induction l with
  | nil => simp [Linear.lookup] at h
  | cons e t ih =>
    obtain ⟨w, d⟩ := e
    unfold Linear.lookup at h
    split at h
    · rename_i hx; simp only [Option.some.injEq] at h; subst h; subst hx; exact List.mem_cons_self
    · exact List.mem_cons_of_mem _ (ih h)

theorem lookup_eq_none_iff {x : V} {l : List (V × ZMod p)} :
    Linear.lookup x l = none ↔ ∀ k, (x, k) ∉ l := by
  induction l with
  | nil => simp [Linear.lookup]
  | cons e t ih =>
    obtain ⟨w, d⟩ := e
    unfold Linear.lookup
    split
    · rename_i h; subst h; simp; exact ⟨d, fun h => absurd rfl h⟩
    · rename_i h
      rw [ih]
      simp [h]

theorem lookup_of_mem {x : V} {k : ZMod p} {l : List (V × ZMod p)}
    (hs : l.Pairwise fun e f => e.1 < f.1) (h : (x, k) ∈ l) : Linear.lookup x l = some k := by
  induction l with
  | nil => cases h
  | cons e t ih =>
    obtain ⟨w, d⟩ := e
    rw [List.pairwise_cons] at hs
    unfold Linear.lookup
    rcases List.mem_cons.1 h with h | h
    · simp only [Prod.mk.injEq] at h; rw [if_pos h.1, h.2]
    · have := hs.1 _ h
      simp only at this
      rw [if_neg (ne_of_gt this)]
      exact ih hs.2 h

theorem evalL_erase {R : Type} [CommRing R] (φ : ZMod p →+* R) (σ : V → R) {x : V} {k : ZMod p}
    {l : List (V × ZMod p)} (hs : l.Pairwise fun e f => e.1 < f.1)
    (h : Linear.lookup x l = some k) :
    evalL φ σ (Linear.erase x l) + φ k * σ x = evalL φ σ l := by
  induction l with
  | nil => simp [Linear.lookup] at h
  | cons e t ih =>
    obtain ⟨w, d⟩ := e
    rw [List.pairwise_cons] at hs
    unfold Linear.lookup at h
    split at h
    · rename_i hx
      simp only [Option.some.injEq] at h
      subst h; subst hx
      have : Linear.erase x ((x, d) :: t) = t := by
        unfold Linear.erase
        rw [List.filter_cons_of_neg (by simp)]
        rw [List.filter_eq_self]
        intro e he
        have := hs.1 e he
        simpa using (ne_of_gt this)
      rw [this, evalL_cons]; ring
    · rename_i hx
      have : Linear.erase x ((w, d) :: t) = (w, d) :: Linear.erase x t := by
        unfold Linear.erase
        rw [List.filter_cons_of_pos (by simpa using fun h => hx h.symm)]
      rw [this, evalL_cons, evalL_cons, ← ih hs.2 h]; ring

theorem mem_erase {x : V} {e : V × ZMod p} {l : List (V × ZMod p)} :
    e ∈ Linear.erase x l ↔ e ∈ l ∧ e.1 ≠ x := by
  unfold Linear.erase; simp [List.mem_filter]

theorem evalL_update {R : Type} [CommRing R] (φ : ZMod p →+* R) (σ : V → R) {x : V} {s : R}
    {l : List (V × ZMod p)} (h : ∀ k, (x, k) ∉ l) :
    evalL φ (Function.update σ x s) l = evalL φ σ l := by
  apply evalL_congr
  intro e he
  rw [Function.update_of_ne]
  rintro rfl
  exact h e.2 he

section SubstEval
variable {R : Type} [CommRing R] (φ : ZMod p →+* R) (σ : V → R)

theorem evalIn_collapseTerm {a b e : GExpr p V} (h : collapseTerm a b = some e) :
    evalIn φ σ e = evalIn φ σ a * evalIn φ σ b := by
  unfold collapseTerm at h
  split at h
  · rename_i l r hl hr
    simp only [Option.some.injEq] at h; subst h
    rw [evalIn_const, evalIn_of_tryToKnown φ σ hl, evalIn_of_tryToKnown φ σ hr, map_mul]
  · rename_i l hl hr
    simp only [Option.some.injEq] at h; subst h
    rw [evalIn_scale, evalIn_of_tryToKnown φ σ hl]
  · rename_i r hl hr
    simp only [Option.some.injEq] at h; subst h
    rw [evalIn_scale, evalIn_of_tryToKnown φ σ hr, mul_comm]
  · cases h

theorem collapseTerm_none {a b : GExpr p V} (h : collapseTerm a b = none) :
    a.tryToKnown = none ∧ b.tryToKnown = none := by
  unfold collapseTerm at h
  split at h <;> simp_all

theorem evalIn_linear_subst {x : V} {s : ZMod p} {l : List (V × ZMod p)} {c : ZMod p}
    (hs : l.Pairwise fun e f => e.1 < f.1) :
    ∀ lc : List (V × ZMod p) × ZMod p, lc = (Linear.moveToConstant x s l c).getD (l, c) →
    evalL φ σ lc.1 + φ lc.2 = evalL φ (Function.update σ x (φ s)) l + φ c := by
  rintro lc rfl
  unfold Linear.moveToConstant
  cases hl : Linear.lookup x l with
  | none => simp only [Option.map_none, Option.getD_none]; rw [evalL_update φ σ (lookup_eq_none_iff.1 hl)]
  | some k =>
    simp only [Option.map_some, Option.getD_some]
    have h := evalL_erase φ (Function.update σ x (φ s)) hs hl
    have h2 : evalL φ (Function.update σ x (φ s)) (Linear.erase x l) =
        evalL φ σ (Linear.erase x l) := evalL_update φ σ fun k hk => (mem_erase.1 hk).2 rfl
    rw [h2, Function.update_self] at h
    simp only [map_add, map_mul]
    rw [← h]; ring

theorem evalIn_substSimple (x : V) (s : ZMod p) {e : GExpr p V} (h : WF e) :
    evalIn φ σ (substSimple x s e) = evalIn φ (Function.update σ x (φ s)) e := by
  induction e using ind with
  | h q l c ih =>
    obtain ⟨h1, h2, h3⟩ := wf_inv h
    rw [substSimple]
    generalize hlc : (Linear.moveToConstant x s l c).getD (l, c) = lc
    have e1 := evalIn_linear_subst φ σ (s := s) (c := c) h2 lc hlc.symm
    have e2 : ∀ (d : ZMod p) (t : GExpr p V),
        evalInQ φ σ (substSimpleQ x s q d t).1 + φ (substSimpleQ x s q d t).2.1 +
          evalIn φ σ (substSimpleQ x s q d t).2.2 =
        evalInQ φ (Function.update σ x (φ s)) q + φ d + evalIn φ σ t := by
      clear e1 hlc h h2 h3
      induction q with
      | nil => intro d t; simp [substSimpleQ, evalInQ_nil]
      | cons ab tl iht =>
        intro d t
        obtain ⟨a, b⟩ := ab
        obtain ⟨w1, w2, -, -⟩ := h1 (a, b) List.mem_cons_self
        have ha := (ih (a, b) List.mem_cons_self).1 w1
        have hb := (ih (a, b) List.mem_cons_self).2 w2
        have iht' := iht (fun x hx => ih x (List.mem_cons_of_mem _ hx))
          (fun x hx => h1 x (List.mem_cons_of_mem _ hx))
        simp only at ha hb
        rw [substSimpleQ, evalInQ_cons]
        simp only
        split
        · rename_i u v hu hv
          rw [iht', ← ha, ← hb, evalIn_of_tryToKnown φ σ hu, evalIn_of_tryToKnown φ σ hv]
          simp only [map_add, map_mul]; ring
        · rename_i u hu hv
          rw [iht', ← ha, ← hb, evalIn_of_tryToKnown φ σ hu]
          split
          · rw [evalIn_add, evalIn_scale]; ring
          · rename_i hu0; simp only [ne_eq, not_not] at hu0; subst hu0; simp
        · rename_i v hu hv
          rw [iht', ← ha, ← hb, evalIn_of_tryToKnown φ σ hv]
          split
          · rw [evalIn_add, evalIn_scale]; ring
          · rename_i hu0; simp only [ne_eq, not_not] at hu0; subst hu0; simp
        · have := iht' d t
          rw [evalInQ_cons]
          simp only
          rw [ha, hb]
          linear_combination this
    have e2 := e2 lc.2 zero
    rw [evalIn_zero] at e2
    generalize substSimpleQ x s q lc.2 zero = r at e2 ⊢
    have e3 : evalIn φ σ (if r.2.2.isZero = true then mk r.1 lc.1 r.2.1
        else (mk r.1 lc.1 r.2.1).add r.2.2) = evalIn φ σ (mk r.1 lc.1 r.2.1) + evalIn φ σ r.2.2 := by
      split
      · rename_i hz
        unfold isZero at hz
        split at hz
        · rename_i k hk
          simp only [decide_eq_true_eq] at hz
          rw [evalIn_of_tryToKnown φ σ hk, hz]; simp
        · cases hz
      · exact evalIn_add φ σ _ _
    rw [e3, evalIn_mk, evalIn_mk]
    linear_combination e1 + e2

theorem evalIn_substKnown (x : V) (s : ZMod p) {e : GExpr p V} (h : WF e) :
    evalIn φ σ (substKnown x s e) = evalIn φ (Function.update σ x (φ s)) e := by
  induction e using ind with
  | h q l c ih =>
    obtain ⟨h1, h2, h3⟩ := wf_inv h
    rw [substKnown]
    have e1 : evalL φ σ ((Linear.moveToConstant x s l c).getD (l.filter fun e => e.2 ≠ 0, c)).1 +
        φ ((Linear.moveToConstant x s l c).getD (l.filter fun e => e.2 ≠ 0, c)).2 =
        evalL φ (Function.update σ x (φ s)) l + φ c := by
      have := evalIn_linear_subst φ σ (s := s) (c := c) (x := x) h2 _ rfl
      rw [← this]
      cases Linear.moveToConstant x s l c with
      | none => simp only [Option.getD_none, evalL_filter_ne]
      | some k => rfl
    generalize (Linear.moveToConstant x s l c).getD (l.filter fun e => e.2 ≠ 0, c) = lc at e1 ⊢
    have e2 : ∀ (t : GExpr p V),
        evalInQ φ σ (substKnownQ x s q t).1 + evalIn φ σ (substKnownQ x s q t).2 =
        evalInQ φ (Function.update σ x (φ s)) q + evalIn φ σ t := by
      clear e1 h h2 h3
      induction q with
      | nil => intro t; simp [substKnownQ, evalInQ_nil]
      | cons ab tl iht =>
        intro t
        obtain ⟨a, b⟩ := ab
        obtain ⟨w1, w2, -, -⟩ := h1 (a, b) List.mem_cons_self
        have ha := (ih (a, b) List.mem_cons_self).1 w1
        have hb := (ih (a, b) List.mem_cons_self).2 w2
        have iht' := iht (fun x hx => ih x (List.mem_cons_of_mem _ hx))
          (fun x hx => h1 x (List.mem_cons_of_mem _ hx))
        simp only at ha hb
        rw [substKnownQ, evalInQ_cons]
        simp only
        split
        · rename_i e he
          rw [iht', evalIn_add, evalIn_collapseTerm φ σ he, ha, hb]; ring
        · have := iht' t
          rw [evalInQ_cons]
          simp only
          rw [ha, hb]
          linear_combination this
    have e2 := e2 zero
    rw [evalIn_zero] at e2
    generalize substKnownQ x s q zero = r at e2 ⊢
    have e3 : evalIn φ σ (if r.2.tryToKnown = some 0
        then mk (removeQuadraticTermsAddingToZero r.1) lc.1 lc.2
        else (mk (removeQuadraticTermsAddingToZero r.1) lc.1 lc.2).add r.2) =
        evalIn φ σ (mk (removeQuadraticTermsAddingToZero r.1) lc.1 lc.2) + evalIn φ σ r.2 := by
      split
      · rename_i hk
        rw [evalIn_of_tryToKnown φ σ hk]; simp
      · exact evalIn_add φ σ _ _
    rw [e3, evalIn_mk, evalIn_mk, evalInQ_removeQuadraticTermsAddingToZero]
    linear_combination e1 + e2

theorem evalIn_subst (x : V) (s : GExpr p V) (e : GExpr p V) :
    evalIn φ σ (subst x s e) = evalIn φ (Function.update σ x (evalIn φ σ s)) e := by
  induction e using ind with
  | h q l c ih =>
    rw [subst]
    split
    · rename_i hx
      apply evalIn_congr
      intro v hv
      rw [Function.update_of_ne]
      rintro rfl
      exact hx hv
    · rename_i hocc
      clear hocc
      simp only
      have e1 : ∀ acc : GExpr p V, evalL φ σ (l.filter fun e => e.1 ≠ x) +
          evalIn φ σ (l.foldl (fun acc e => if e.1 = x then add acc (scale e.2 s) else acc) acc) =
          evalL φ (Function.update σ x (evalIn φ σ s)) l + evalIn φ σ acc := by
        clear ih
        induction l with
        | nil => intro acc; simp [evalL_nil]
        | cons e t iht =>
          intro acc
          rw [List.foldl_cons, evalL_cons]
          by_cases he : e.1 = x
          · rw [List.filter_cons_of_neg (by simpa using he), if_pos he, iht, evalIn_add,
              evalIn_scale, he, Function.update_self]; ring
          · rw [List.filter_cons_of_pos (by simpa using he), if_neg he, evalL_cons,
              Function.update_of_ne he]
            linear_combination iht acc
      have e2 : ∀ (t : GExpr p V),
          evalInQ φ σ (substQ x s q t).1 + evalIn φ σ (substQ x s q t).2 =
          evalInQ φ (Function.update σ x (evalIn φ σ s)) q + evalIn φ σ t := by
        clear e1
        induction q with
        | nil => intro t; simp [substQ, evalInQ_nil]
        | cons ab tl iht =>
          intro t
          obtain ⟨a, b⟩ := ab
          have ha := (ih (a, b) List.mem_cons_self).1
          have hb := (ih (a, b) List.mem_cons_self).2
          have iht' := iht (fun x hx => ih x (List.mem_cons_of_mem _ hx))
          simp only at ha hb
          rw [substQ, evalInQ_cons]
          simp only
          split
          · rename_i e he
            rw [iht', evalIn_add, evalIn_collapseTerm φ σ he, ha, hb]; ring
          · have := iht' t
            rw [evalInQ_cons]
            simp only
            rw [ha, hb]
            linear_combination this
      have e1 := e1 zero
      rw [evalIn_zero] at e1
      generalize (l.foldl (fun acc e => if e.1 = x then add acc (scale e.2 s) else acc) zero)
        = toAdd at e1 ⊢
      have e2 := e2 toAdd
      rw [evalIn_add, evalIn_mk, evalIn_mk, evalInQ_removeQuadraticTermsAddingToZero]
      linear_combination e1 + e2

end SubstEval
end Ordered
end Verif.GExpr
