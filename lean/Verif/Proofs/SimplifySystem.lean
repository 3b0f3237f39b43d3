import Verif.Proofs.FreeVariables
import Verif.Proofs.ExhaustiveSearch
import Verif.Proofs.Memory
import Verif.Proofs.Derived
import Verif.Props.Indexed
import Verif.Props.Solver

/-!
# Lemmas: replacing expressions by equal ones

Used for the simplification by exhaustive search, the results of the solver and constant bus fields.
-/

namespace Verif

open GExpr

set_option linter.unusedSectionVars false

variable {p : ℕ} {V : Type} [LinearOrder V] [Fact p.Prime]

/-! ### Replacement of fields -/

/-- The replacement is accompanied by an equality, if the expression is changed. -/
def Replacement (r : GExpr p V → GExpr p V × List (GExpr p V)) : Prop :=
  ∀ e, r e = (e, []) ∨ ∃ s q, r e = (s, [q]) ∧
    ∀ σ : V → ZMod p, q.eval σ = 0 ↔ e.eval σ = s.eval σ

theorem Replacement.eval {r : GExpr p V → GExpr p V × List (GExpr p V)} (hr : Replacement r)
    (e : GExpr p V) (σ : V → ZMod p) :
    (∀ q ∈ (r e).2, q.eval σ = 0) ↔ (r e).1.eval σ = e.eval σ := by
  rcases hr e with h | ⟨s, q, h, hq⟩
  · rw [h]; simp
  · rw [h]
    simp only [List.mem_singleton, forall_eq]
    rw [hq σ, eq_comm]

theorem evalAt_map_of_fields {f : GExpr p V → GExpr p V} {b : BusInteraction (GExpr p V)}
    {σ τ : V → ZMod p} (h : ∀ e ∈ b.fields, (f e).eval σ = e.eval τ) :
    (b.map f).evalAt σ = b.evalAt τ := by
  unfold BusInteraction.evalAt BusInteraction.map
  simp only [BusInteraction.mk.injEq, List.map_map]
  exact ⟨h _ (by simp [BusInteraction.fields]), h _ (by simp [BusInteraction.fields]),
    List.map_congr_left fun e he => h e (by simp [BusInteraction.fields, he])⟩

/-- If the added equalities hold, the interactions send the same messages. -/
theorem Replacement.bus {r : GExpr p V → GExpr p V × List (GExpr p V)} (hr : Replacement r)
    {l : List (BusInteraction (GExpr p V))} {σ : V → ZMod p}
    (h : ∀ q ∈ (l.flatMap fun b => b.fields.map r).flatMap Prod.snd, q.eval σ = 0) :
    ∀ b ∈ l, (b.map fun f => (r f).1).evalAt σ = b.evalAt σ := by
  intro b hb
  refine evalAt_map_of_fields fun e he => ?_
  rw [← hr.eval]
  intro q hq
  exact h q (List.mem_flatMap.2 ⟨r e, List.mem_flatMap.2 ⟨b, hb, List.mem_map.2 ⟨e, he, rfl⟩⟩, hq⟩)

theorem messages_map {f : ZMod p → Bool} {l : List (BusInteraction (GExpr p V))}
    {g : BusInteraction (GExpr p V) → BusInteraction (GExpr p V)} {σ τ : V → ZMod p}
    (h : ∀ b ∈ l, (g b).evalAt σ = b.evalAt τ) (a a' : List (GExpr p V))
    (d d' : List (DerivedVariable p V)) :
    ConstraintSystem.messages f ⟨a, l.map g, d⟩ σ = ConstraintSystem.messages f ⟨a', l, d'⟩ τ := by
  unfold ConstraintSystem.messages
  simp only [List.map_map]
  congr 1
  exact List.map_congr_left fun b hb => h b hb

/-- Adding the equalities of the fields, exactly. -/
theorem Replacement.satisfied {r : GExpr p V → GExpr p V × List (GExpr p V)} (hr : Replacement r)
    (bus : Bus p) (s : ConstraintSystem p V) (σ : V → ZMod p) :
    ({ s with
      bus := s.bus.map fun b => b.map fun f => (r f).1
      algebraic := s.algebraic ++ (s.bus.flatMap fun b => b.fields.map r).flatMap Prod.snd } :
      ConstraintSystem p V).Satisfied bus σ ↔
    s.Satisfied bus σ ∧ ∀ b ∈ s.bus, ∀ e ∈ b.fields, (r e).1.eval σ = e.eval σ := by
  constructor
  · rintro ⟨h1, h2⟩
    simp only [List.mem_append] at h1
    have hb := hr.bus (l := s.bus) (σ := σ) fun q hq => h1 q (.inr hq)
    refine ⟨⟨fun e he => h1 e (.inl he), fun b hb' => ?_⟩, fun b hb' e he => ?_⟩
    · rw [← hb b hb']
      exact h2 _ (List.mem_map.2 ⟨b, hb', rfl⟩)
    · rw [← hr.eval]
      intro q hq
      exact h1 q (.inr (List.mem_flatMap.2 ⟨r e, List.mem_flatMap.2
        ⟨b, hb', List.mem_map.2 ⟨e, he, rfl⟩⟩, hq⟩))
  · rintro ⟨⟨h1, h2⟩, h3⟩
    refine ⟨fun e he => ?_, fun b hb => ?_⟩
    · simp only [List.mem_append] at he
      rcases he with he | he
      · exact h1 e he
      · obtain ⟨y, hy, he⟩ := List.mem_flatMap.1 he
        obtain ⟨b, hb, hy⟩ := List.mem_flatMap.1 hy
        obtain ⟨e', he', rfl⟩ := List.mem_map.1 hy
        exact (hr.eval e' σ).2 (h3 b hb e' he') e he
    · obtain ⟨b', hb', rfl⟩ := List.mem_map.1 hb
      rw [evalAt_map_of_fields fun e he => h3 b' hb' e he]
      exact h2 b' hb'

/-! ### Exhaustive search -/

theorem eval_substKnownMulti_agrees {σ : V → ZMod p} {a : List (V × ZMod p)} (ha : AgreesWith σ a)
    {e : GExpr p V} (h : WF e) : eval σ (substKnownMulti a e) = eval σ e :=
  eval_substAssignment ha h

theorem wf_substKnownMulti (a : List (V × ZMod p)) {e : GExpr p V} (h : WF e) :
    WF (substKnownMulti a e) := wf_substAssignment a h

theorem mem_insertSimplified {e : GExpr p V} {b : Bool} {l : List (Simplified p V)}
    {P : Simplified p V → Prop} (hl : ∀ x ∈ l, P x) (hnew : P ⟨e, b, none⟩)
    (hup : ∀ x, P x → x.expr = e → P { x with isAlgebraic := x.isAlgebraic || b }) :
    ∀ x ∈ insertSimplified e b l, P x := by
  induction l with
  | nil => intro x hx; rw [insertSimplified, List.mem_singleton] at hx; rw [hx]; exact hnew
  | cons y t ih =>
    intro x hx
    rw [insertSimplified] at hx
    split at hx
    · rename_i hy
      rcases List.mem_cons.1 hx with rfl | hx
      · exact hup y (hl y List.mem_cons_self) hy
      · exact hl x (List.mem_cons_of_mem _ hx)
    · rcases List.mem_cons.1 hx with rfl | hx
      · exact hl x List.mem_cons_self
      · exact ih (fun z hz => hl z (List.mem_cons_of_mem _ hz)) x hx

/-- What is true of every entry at the start. -/
theorem simplifiedInit_spec {refs : List (ConstraintRef p V)} {σ : V → ZMod p}
    (hw : ∀ c ∈ refs, c.WF) (h0 : ∀ e, ConstraintRef.alg e ∈ refs → e.eval σ = 0) :
    ∀ x ∈ simplifiedInit refs, WF x.expr ∧ (x.isAlgebraic = true → x.expr.eval σ = 0) ∧
      x.simplified = none := by
  have hall : ∀ y ∈ refs.flatMap ConstraintRef.exprs, WF y.1 ∧ (y.2 = true → y.1.eval σ = 0) := by
    intro y hy
    obtain ⟨c, hc, hy⟩ := List.mem_flatMap.1 hy
    cases c with
    | alg e =>
      rw [ConstraintRef.exprs, List.mem_singleton] at hy
      rw [hy]
      exact ⟨hw _ hc, fun _ => h0 e hc⟩
    | bus b =>
      rw [ConstraintRef.exprs, List.mem_map] at hy
      obtain ⟨f, hf, rfl⟩ := hy
      exact ⟨hw _ hc f hf, by simp⟩
  unfold simplifiedInit
  revert hall
  generalize refs.flatMap ConstraintRef.exprs = l
  intro hall
  have key : ∀ acc : List (Simplified p V), (∀ x ∈ acc, WF x.expr ∧
      (x.isAlgebraic = true → x.expr.eval σ = 0) ∧ x.simplified = none) →
      ∀ x ∈ l.foldl (fun acc x => insertSimplified x.1 x.2 acc) acc, WF x.expr ∧
      (x.isAlgebraic = true → x.expr.eval σ = 0) ∧ x.simplified = none := by
    induction l with
    | nil => exact fun acc h => h
    | cons y t ih =>
      intro acc h
      rw [List.foldl_cons]
      refine ih (fun z hz => hall z (List.mem_cons_of_mem _ hz)) _ ?_
      obtain ⟨y1, y2⟩ := hall y List.mem_cons_self
      refine mem_insertSimplified h ⟨y1, y2, rfl⟩ ?_
      rintro x ⟨x1, x2, x3⟩ hxy
      refine ⟨x1, fun h => ?_, x3⟩
      simp only [Bool.or_eq_true] at h
      rcases h with h | h
      · exact x2 h
      · simp only [hxy]; exact y2 h
  exact key [] (by simp)

theorem update_expr (n : GExpr p V) (x : Simplified p V) :
    (x.update n).expr = x.expr ∧ (x.update n).isAlgebraic = x.isAlgebraic := by
  unfold Simplified.update
  split
  · exact ⟨rfl, rfl⟩
  · split <;> exact ⟨rfl, rfl⟩
  · exact ⟨rfl, rfl⟩

theorem update_some {n s : GExpr p V} {x : Simplified p V}
    (h : (x.update n).simplified = some (some s)) :
    s = n ∧ (x.simplified = none ∨ x.simplified = some (some s)) := by
  unfold Simplified.update at h
  split at h
  · rename_i hx
    simp only [Option.some.injEq] at h
    exact ⟨h.symm, .inl hx⟩
  · rename_i ex hx
    split at h
    · simp at h
    · rename_i hne
      rw [hx] at h
      simp only [Option.some.injEq] at h
      have : ex = n := by simpa using hne
      exact ⟨h ▸ this, .inr (by rw [hx, h])⟩
  · rename_i hx
    rw [hx] at h
    simp at h

/-- Every entry after an assignment comes from one before. -/
theorem simplifyUnder_mem {xs : List (Simplified p V)} {a : List (V × ZMod p)} {x : Simplified p V}
    (h : x ∈ simplifyUnder xs a) : x ∈ xs ∨ ∃ y ∈ xs, x = y.update (substKnownMulti a y.expr) := by
  unfold simplifyUnder at h
  simp only at h
  split at h
  · exact .inl h
  · obtain ⟨y, hy, rfl⟩ := List.mem_map.1 (List.mem_filter.1 h).1
    exact .inr ⟨y, hy, rfl⟩

theorem simplify_fold {σ : V → ZMod p} {as : List (List (V × ZMod p))} {xs : List (Simplified p V)}
    (hxs : ∀ x ∈ xs, WF x.expr ∧ (x.isAlgebraic = true → x.expr.eval σ = 0)) :
    ∀ x ∈ as.foldl simplifyUnder xs, WF x.expr ∧ (x.isAlgebraic = true → x.expr.eval σ = 0) := by
  induction as generalizing xs with
  | nil => exact hxs
  | cons a t ih =>
    refine ih fun x hx => ?_
    rcases simplifyUnder_mem hx with hx | ⟨y, hy, rfl⟩
    · exact hxs x hx
    · rw [(update_expr _ y).1, (update_expr _ y).2]; exact hxs y hy

/-- Once `a` has been taken into account, the simplification is the one under `a`. -/
theorem simplify_fold_after {a : List (V × ZMod p)} {as : List (List (V × ZMod p))}
    {xs : List (Simplified p V)}
    (hxs : ∀ x ∈ xs, x.simplified ≠ none ∧
      ∀ s, x.simplified = some (some s) → s = substKnownMulti a x.expr) :
    ∀ x ∈ as.foldl simplifyUnder xs, x.simplified ≠ none ∧
      ∀ s, x.simplified = some (some s) → s = substKnownMulti a x.expr := by
  induction as generalizing xs with
  | nil => exact hxs
  | cons b t ih =>
    refine ih fun x hx => ?_
    rcases simplifyUnder_mem hx with hx | ⟨y, hy, rfl⟩
    · exact hxs x hx
    · obtain ⟨y1, y2⟩ := hxs y hy
      refine ⟨?_, fun s hs => ?_⟩
      · unfold Simplified.update
        split
        · simp
        · split
          · simp
          · exact y1
        · exact y1
      · rw [(update_expr _ y).1]
        exact y2 s ((update_some hs).2.resolve_left y1)

theorem simplify_correct {σ : V → ZMod p} {as : List (List (V × ZMod p))}
    {xs : List (Simplified p V)}
    (hxs : ∀ x ∈ xs, WF x.expr ∧ (x.isAlgebraic = true → x.expr.eval σ = 0) ∧
      x.simplified = none) {a : List (V × ZMod p)} (ha : a ∈ as) (hσ : AgreesWith σ a)
    {x : Simplified p V} (hx : x ∈ as.foldl simplifyUnder xs) {s : GExpr p V}
    (hs : x.simplified = some (some s)) : x.expr.eval σ = s.eval σ := by
  obtain ⟨l, r, rfl⟩ := List.mem_iff_append.1 ha
  rw [List.foldl_append, List.foldl_cons] at hx
  have h1 := simplify_fold (σ := σ) (as := l) fun x hx => ⟨(hxs x hx).1, (hxs x hx).2.1⟩
  have hwf := simplify_fold (σ := σ) (as := a :: r) h1 x hx
  have h2 : ∀ x ∈ simplifyUnder (l.foldl simplifyUnder xs) a, x.simplified ≠ none ∧
      ∀ s, x.simplified = some (some s) → s = substKnownMulti a x.expr := by
    intro x hx
    unfold simplifyUnder at hx
    simp only at hx
    split at hx
    · rename_i hc
      exfalso
      rw [List.any_eq_true] at hc
      obtain ⟨y, hy, hc⟩ := hc
      rw [Bool.and_eq_true] at hc
      obtain ⟨hya, hc⟩ := hc
      split at hc
      · rename_i n hn
        have : n = 0 := by
          rw [← eval_known σ hn, eval_substKnownMulti_agrees hσ (h1 y hy).1]
          exact (h1 y hy).2 hya
        simp [this] at hc
      · cases hc
    · obtain ⟨y, hy, rfl⟩ := List.mem_map.1 (List.mem_filter.1 hx).1
      refine ⟨?_, fun s hs => ?_⟩
      · unfold Simplified.update
        split
        · simp
        · rename_i h
          split
          · simp
          · rw [h]; simp
        · rename_i h; rw [h]; simp
      · rw [(update_expr _ y).1]
        exact (update_some hs).1
  have h3 := (simplify_fold_after (as := r) h2 x hx).2 s hs
  rw [h3, eval_substKnownMulti_agrees hσ hwf.1]

/-- Substitutions that are true of `σ` and keep expressions well-formed. -/
def SubsOk (σ : V → ZMod p) (subs : List (GExpr p V × GExpr p V)) : Prop :=
  ∀ x ∈ subs, x.1.eval σ = x.2.eval σ

theorem substitutionsFor_ok {ix : Indexed p V} (hi : ix.Inv) (hw : ix.sys.WF)
    {rc : V → RangeConstraint p} {vs : List V} {l : List (GExpr p V × GExpr p V)}
    (h : substitutionsFor ix rc vs = .ok l) {bus : Bus p} {σ : V → ZMod p}
    (hsat : ix.sys.Satisfied bus σ) (hr : ∀ v, (rc v).Allows (σ v)) : SubsOk σ l := by
  unfold substitutionsFor at h
  rw [Indexed.constraintsReferencing_ok hi, Except.bind_ok_iff] at h
  obtain ⟨refs, h1, h⟩ := h
  cases h1
  rw [Except.bind_ok_iff] at h
  obtain ⟨as, h2, h⟩ := h
  cases h
  obtain ⟨a, ha, hag, -⟩ := allPossibleAssignments_complete h2 fun v _ => hr v
  intro y hy
  obtain ⟨x, hx, hxy⟩ := List.mem_filterMap.1 hy
  split at hxy
  · rename_i s hs
    split at hxy
    · cases hxy
      refine simplify_correct (simplifiedInit_spec ?_ ?_) ha hag hx hs
      · intro c hc
        obtain ⟨i, -, hi'⟩ := List.mem_filterMap.1 hc
        exact refAt_wf hw hi'
      · intro e he
        exact hsat.algebraic e ((mem_refs hi).1 he)
    · cases hxy
  · cases hxy

theorem mem_foldl_mapInsert {K W : Type} [DecidableEq K] {l m : List (K × W)} {x : K × W}
    (h : x ∈ l.foldl (fun acc x => mapInsert x.1 x.2 acc) m) : x ∈ l ∨ x ∈ m := by
  have hins : ∀ (k : K) (w : W) (m : List (K × W)), x ∈ mapInsert k w m → x = (k, w) ∨ x ∈ m := by
    intro k w m
    induction m with
    | nil => intro h; simpa [mapInsert] using h
    | cons a t ih =>
      intro h
      obtain ⟨k', w'⟩ := a
      rw [mapInsert] at h
      split at h
      · rcases List.mem_cons.1 h with h | h
        · exact .inl h
        · exact .inr (List.mem_cons_of_mem _ h)
      · rcases List.mem_cons.1 h with h | h
        · exact .inr (h ▸ List.mem_cons_self)
        · exact (ih h).imp id (List.mem_cons_of_mem _)
  induction l generalizing m with
  | nil => exact .inr h
  | cons y t ih =>
    rcases ih h with h | h
    · exact .inl (List.mem_cons_of_mem _ h)
    · rcases hins _ _ _ h with rfl | h
      · exact .inl List.mem_cons_self
      · exact .inr h

theorem allSubstitutions_ok {ix : Indexed p V} (hi : ix.Inv) (hw : ix.sys.WF)
    {rc : V → RangeConstraint p} {bus : Bus p} {σ : V → ZMod p}
    (hsat : ix.sys.Satisfied bus σ) (hr : ∀ v, (rc v).Allows (σ v)) {vss : List (List V)}
    {acc subs : List (GExpr p V × GExpr p V)} (h : allSubstitutions ix rc vss acc = .ok subs)
    (hacc : SubsOk σ acc) : SubsOk σ subs := by
  induction vss generalizing acc with
  | nil => rw [allSubstitutions] at h; cases h; exact hacc
  | cons vs t ih =>
    rw [allSubstitutions, Except.bind_ok_iff] at h
    obtain ⟨l, h1, h⟩ := h
    refine ih h fun x hx => ?_
    rcases mem_foldl_mapInsert hx with hx | hx
    · exact substitutionsFor_ok hi hw h1 hsat hr x hx
    · exact hacc x hx

theorem eval_sub_zero_iff {a b : GExpr p V} (σ : V → ZMod p) :
    (sub a b).eval σ = 0 ↔ a.eval σ = b.eval σ := by
  rw [eval_sub, sub_eq_zero]

theorem replaceField_replacement (subs : List (GExpr p V × GExpr p V)) :
    Replacement (replaceField subs) := by
  intro e
  unfold replaceField
  split
  · rename_i s hs
    exact .inr ⟨s, _, rfl, fun σ => eval_sub_zero_iff σ⟩
  · exact .inl rfl

/-- The constraint with its equality says the same as the original one. -/
theorem replaceConstraint_iff (subs : List (GExpr p V × GExpr p V)) (e : GExpr p V)
    (σ : V → ZMod p) (h : (replaceConstraint subs e).1.eval σ = 0)
    (h' : ∀ q ∈ (replaceConstraint subs e).2, q.eval σ = 0) : e.eval σ = 0 := by
  unfold replaceConstraint at h h'
  split at h
  · rename_i s hs
    simp only [hs] at h'
    split at h
    · exact h
    · rename_i hz
      rw [if_neg hz] at h'
      have := h' _ (List.mem_singleton.2 rfl)
      rw [eval_sub_zero_iff] at this
      rw [this]; exact h
  · exact h

theorem simplifyExhaustive_ok {ix : Indexed p V} {rc : V → RangeConstraint p}
    {s' : ConstraintSystem p V} (h : simplifyExhaustive ix rc = .ok s') :
    ∃ subs, allSubstitutions ix rc (bruteForceCandidates ix.sys rc) [] = .ok subs ∧
      (s' = ix.sys ∨ s' = { ix.sys with
        algebraic := (ix.sys.algebraic.map (replaceConstraint subs)).map Prod.fst ++
          ((ix.sys.algebraic.map (replaceConstraint subs) ++
            ix.sys.bus.flatMap fun b => b.fields.map (replaceField subs)).flatMap Prod.snd).eraseDups
        bus := ix.sys.bus.map fun b => b.map fun f => (replaceField subs f).1 }) := by
  unfold simplifyExhaustive at h
  rw [Except.bind_ok_iff] at h
  obtain ⟨subs, h1, h⟩ := h
  refine ⟨subs, h1, ?_⟩
  split at h
  · cases h; exact .inl rfl
  · cases h; exact .inr rfl

theorem simplifyExhaustive_sound {ix : Indexed p V} {rc : V → RangeConstraint p}
    {s' : ConstraintSystem p V} (h : simplifyExhaustive ix rc = .ok s') {bus : Bus p}
    (f : ZMod p → Bool) {σ : V → ZMod p} (hσ : s'.Satisfied bus σ) :
    ix.sys.Satisfied bus σ ∧ s'.messages f σ = ix.sys.messages f σ := by
  obtain ⟨subs, -, rfl | rfl⟩ := simplifyExhaustive_ok h
  · exact ⟨hσ, rfl⟩
  · have hadd : ∀ q ∈ (ix.sys.algebraic.map (replaceConstraint subs) ++
        ix.sys.bus.flatMap fun b => b.fields.map (replaceField subs)).flatMap Prod.snd,
        q.eval σ = 0 := by
      intro q hq
      exact hσ.algebraic q (List.mem_append_right _ (mem_eraseDups'.2 hq))
    have hb := (replaceField_replacement subs).bus (l := ix.sys.bus) (σ := σ) fun q hq =>
      hadd q (by rw [List.flatMap_append]; exact List.mem_append_right _ hq)
    refine ⟨⟨fun e he => ?_, fun b hb' => ?_⟩, messages_map hb _ _ _ _⟩
    · refine replaceConstraint_iff subs e σ ?_ ?_
      · exact hσ.algebraic _ (List.mem_append_left _
          (List.mem_map.2 ⟨_, List.mem_map.2 ⟨e, he, rfl⟩, rfl⟩))
      · intro q hq
        refine hadd q ?_
        rw [List.flatMap_append]
        exact List.mem_append_left _ (List.mem_flatMap.2 ⟨_, List.mem_map.2 ⟨e, he, rfl⟩, hq⟩)
    · rw [← hb b hb']
      exact hσ.bus _ (List.mem_map.2 ⟨b, hb', rfl⟩)

theorem simplifyExhaustive_complete {ix : Indexed p V} (hi : ix.Inv) (hw : ix.sys.WF)
    {rc : V → RangeConstraint p} {s' : ConstraintSystem p V}
    (h : simplifyExhaustive ix rc = .ok s') {bus : Bus p} {σ : V → ZMod p}
    (hσ : ix.sys.Satisfied bus σ) (hr : ∀ v, (rc v).Allows (σ v)) : s'.Satisfied bus σ := by
  obtain ⟨subs, h1, rfl | rfl⟩ := simplifyExhaustive_ok h
  · exact hσ
  · have hs := allSubstitutions_ok hi hw hσ hr h1 (fun x hx => by cases hx)
    have hf : ∀ e, (replaceField subs e).1.eval σ = e.eval σ ∧
        ∀ q ∈ (replaceField subs e).2, q.eval σ = 0 := by
      intro e
      unfold replaceField
      split
      · rename_i s hg
        have := hs _ (mapGet_mem hg)
        exact ⟨this.symm, fun q hq => by
          rw [List.mem_singleton] at hq; rw [hq, eval_sub_zero_iff]; exact this⟩
      · exact ⟨rfl, by simp⟩
    have hc : ∀ e, (replaceConstraint subs e).1.eval σ = e.eval σ ∧
        ∀ q ∈ (replaceConstraint subs e).2, q.eval σ = 0 := by
      intro e
      unfold replaceConstraint
      split
      · rename_i s hg
        split
        · exact ⟨rfl, by simp⟩
        · have := hs _ (mapGet_mem hg)
          exact ⟨this.symm, fun q hq => by
            rw [List.mem_singleton] at hq; rw [hq, eval_sub_zero_iff]; exact this⟩
      · exact ⟨rfl, by simp⟩
    refine ⟨fun e he => ?_, fun b hb => ?_⟩
    · rcases List.mem_append.1 he with he | he
      · obtain ⟨y, hy, rfl⟩ := List.mem_map.1 he
        obtain ⟨e', he', rfl⟩ := List.mem_map.1 hy
        rw [(hc e').1]
        exact hσ.algebraic e' he'
      · rw [mem_eraseDups', List.mem_flatMap] at he
        obtain ⟨y, hy, he⟩ := he
        rcases List.mem_append.1 hy with hy | hy
        · obtain ⟨e', -, rfl⟩ := List.mem_map.1 hy
          exact (hc e').2 e he
        · obtain ⟨b, -, hy⟩ := List.mem_flatMap.1 hy
          obtain ⟨e', -, rfl⟩ := List.mem_map.1 hy
          exact (hf e').2 e he
    · obtain ⟨b', hb', rfl⟩ := List.mem_map.1 hb
      rw [evalAt_map_of_fields fun e _ => (hf e).1]
      exact hσ.bus b' hb'

/-! ### Well-formedness -/

theorem simplify_fold_wf {as : List (List (V × ZMod p))} {xs : List (Simplified p V)}
    (hxs : ∀ x ∈ xs, WF x.expr ∧ ∀ s, x.simplified = some (some s) → WF s) :
    ∀ x ∈ as.foldl simplifyUnder xs, WF x.expr ∧ ∀ s, x.simplified = some (some s) → WF s := by
  induction as generalizing xs with
  | nil => exact hxs
  | cons a t ih =>
    refine ih fun x hx => ?_
    rcases simplifyUnder_mem hx with hx | ⟨y, hy, rfl⟩
    · exact hxs x hx
    · rw [(update_expr _ y).1]
      refine ⟨(hxs y hy).1, fun s hs => ?_⟩
      rw [(update_some hs).1]
      exact wf_substKnownMulti a (hxs y hy).1

theorem allSubstitutions_wf {ix : Indexed p V} (hi : ix.Inv) (hw : ix.sys.WF)
    {rc : V → RangeConstraint p} {vss : List (List V)}
    {acc subs : List (GExpr p V × GExpr p V)} (h : allSubstitutions ix rc vss acc = .ok subs)
    (hacc : ∀ x ∈ acc, WF x.2) : ∀ x ∈ subs, WF x.2 := by
  induction vss generalizing acc with
  | nil => rw [allSubstitutions] at h; cases h; exact hacc
  | cons vs t ih =>
    rw [allSubstitutions, Except.bind_ok_iff] at h
    obtain ⟨l, h1, h⟩ := h
    refine ih h fun x hx => ?_
    rcases mem_foldl_mapInsert hx with hx | hx
    · unfold substitutionsFor at h1
      rw [Indexed.constraintsReferencing_ok hi, Except.bind_ok_iff] at h1
      obtain ⟨refs, h2, h1⟩ := h1
      cases h2
      rw [Except.bind_ok_iff] at h1
      obtain ⟨as, h2, h1⟩ := h1
      cases h1
      obtain ⟨y, hy, hyx⟩ := List.mem_filterMap.1 hx
      split at hyx
      · rename_i s hs
        split at hyx
        · cases hyx
          refine (simplify_fold_wf ?_ y hy).2 s hs
          intro z hz
          have hz' : WF z.expr ∧ z.simplified = none := by
            have hall : ∀ y ∈ ((ix.itemsReferencing vs).filterMap (refAt ix.sys)).flatMap
                ConstraintRef.exprs, WF y.1 := by
              intro y hy
              obtain ⟨c, hc, hy⟩ := List.mem_flatMap.1 hy
              obtain ⟨i, -, hi'⟩ := List.mem_filterMap.1 hc
              have hcw := refAt_wf hw hi'
              cases c with
              | alg e =>
                rw [ConstraintRef.exprs, List.mem_singleton] at hy
                rw [hy]; exact hcw
              | bus b =>
                rw [ConstraintRef.exprs, List.mem_map] at hy
                obtain ⟨f, hf, rfl⟩ := hy
                exact hcw f hf
            unfold simplifiedInit at hz
            revert hall hz
            generalize ((ix.itemsReferencing vs).filterMap (refAt ix.sys)).flatMap
                ConstraintRef.exprs = l
            intro hz hall
            have key : ∀ acc : List (Simplified p V), (∀ x ∈ acc, WF x.expr ∧ x.simplified = none) →
                ∀ x ∈ l.foldl (fun acc x => insertSimplified x.1 x.2 acc) acc,
                  WF x.expr ∧ x.simplified = none := by
              clear hz
              induction l with
              | nil => exact fun acc h => h
              | cons y t ih =>
                intro acc h
                rw [List.foldl_cons]
                refine ih (fun z hz => hall z (List.mem_cons_of_mem _ hz)) _ ?_
                exact mem_insertSimplified h ⟨hall y List.mem_cons_self, rfl⟩ fun x hx _ => hx
            exact key [] (by simp) z hz
          refine ⟨hz'.1, fun s hs => ?_⟩
          rw [hz'.2] at hs
          cases hs
        · cases hyx
      · cases hyx
    · exact hacc x hx

theorem simplifyExhaustive_wf {ix : Indexed p V} (hi : ix.Inv) (hw : ix.sys.WF)
    {rc : V → RangeConstraint p} {s' : ConstraintSystem p V}
    (h : simplifyExhaustive ix rc = .ok s') : s'.WF := by
  obtain ⟨subs, h1, rfl | rfl⟩ := simplifyExhaustive_ok h
  · exact hw
  · have hs := allSubstitutions_wf hi hw h1 (fun x hx => by cases hx)
    have hf : ∀ e, WF e → WF (replaceField subs e).1 ∧ ∀ q ∈ (replaceField subs e).2, WF q := by
      intro e he
      unfold replaceField
      split
      · rename_i s hg
        have := hs _ (mapGet_mem hg)
        exact ⟨this, fun q hq => by
          rw [List.mem_singleton] at hq; rw [hq]; exact wf_sub he this⟩
      · exact ⟨he, by simp⟩
    have hc : ∀ e, WF e → WF (replaceConstraint subs e).1 ∧
        ∀ q ∈ (replaceConstraint subs e).2, WF q := by
      intro e he
      unfold replaceConstraint
      split
      · rename_i s hg
        split
        · exact ⟨he, by simp⟩
        · have := hs _ (mapGet_mem hg)
          exact ⟨this, fun q hq => by
            rw [List.mem_singleton] at hq; rw [hq]; exact wf_sub he this⟩
      · exact ⟨he, by simp⟩
    refine ⟨fun e he => ?_, fun b hb => ?_⟩
    · rcases List.mem_append.1 he with he | he
      · obtain ⟨y, hy, rfl⟩ := List.mem_map.1 he
        obtain ⟨e', he', rfl⟩ := List.mem_map.1 hy
        exact (hc e' (hw.1 e' he')).1
      · rw [mem_eraseDups', List.mem_flatMap] at he
        obtain ⟨y, hy, he⟩ := he
        rcases List.mem_append.1 hy with hy | hy
        · obtain ⟨e', he', rfl⟩ := List.mem_map.1 hy
          exact (hc e' (hw.1 e' he')).2 e he
        · obtain ⟨b, hb, hy⟩ := List.mem_flatMap.1 hy
          obtain ⟨e', he', rfl⟩ := List.mem_map.1 hy
          exact (hf e' (hw.2 b hb e' he')).2 e he
    · obtain ⟨b', hb', rfl⟩ := List.mem_map.1 hb
      intro e he
      rw [fields_map] at he
      obtain ⟨e', he', rfl⟩ := List.mem_map.1 he
      exact (hf e' (hw.2 b' hb' e' he')).1

/-! ### The results of the solver -/

/-- The values of the variables before the substitutions `l`, from those after. -/
def beforeSubsts (σ : V → ZMod p) : List (V × GExpr p V) → V → ZMod p
  | [] => σ
  | (x, e) :: t => Function.update (beforeSubsts σ t) x (eval (beforeSubsts σ t) e)

theorem beforeSubsts_of_not_mem (σ : V → ZMod p) {l : List (V × GExpr p V)} {v : V}
    (h : v ∉ l.map Prod.fst) : beforeSubsts σ l v = σ v := by
  induction l with
  | nil => rfl
  | cons y t ih =>
    rw [List.map_cons, List.mem_cons, not_or] at h
    obtain ⟨x, e⟩ := y
    rw [beforeSubsts, Function.update_of_ne h.1]
    exact ih h.2

theorem beforeSubsts_of_holds {σ : V → ZMod p} {l : List (V × GExpr p V)}
    (h : ∀ x ∈ l, σ x.1 = eval σ x.2) : beforeSubsts σ l = σ := by
  induction l with
  | nil => rfl
  | cons y t ih =>
    obtain ⟨x, e⟩ := y
    rw [beforeSubsts, ih fun z hz => h z (List.mem_cons_of_mem _ hz)]
    have := h (x, e) List.mem_cons_self
    simp only at this
    rw [← this, Function.update_eq_self]

theorem applySubsts_sys {ix : Indexed p V} (hi : ix.Inv) (l : List (V × GExpr p V)) :
    (ix.applySubsts l).sys = l.foldl (fun s x => s.mapExpr (GExpr.subst x.1 x.2)) ix.sys := by
  unfold Indexed.applySubsts
  induction l generalizing ix with
  | nil => rfl
  | cons y t ih =>
    rw [List.foldl_cons, List.foldl_cons, ih (Indexed.inv_subst hi y.1 y.2), Indexed.subst_sys hi]

theorem mapExpr_subst_eval (s : ConstraintSystem p V) (x : V) (e : GExpr p V) (bus : Bus p)
    (f : ZMod p → Bool) (σ : V → ZMod p) :
    ((s.mapExpr (GExpr.subst x e)).Satisfied bus σ ↔
      s.Satisfied bus (Function.update σ x (eval σ e))) ∧
    (s.mapExpr (GExpr.subst x e)).messages f σ =
      s.messages f (Function.update σ x (eval σ e)) := by
  have hb : ∀ b ∈ s.bus, (b.map (GExpr.subst x e)).evalAt σ =
      b.evalAt (Function.update σ x (eval σ e)) :=
    fun b _ => evalAt_map_of_fields fun e' _ => eval_subst σ x e e'
  constructor
  · constructor
    · intro h
      refine ⟨fun a ha => ?_, fun b hb' => ?_⟩
      · rw [← eval_subst]
        exact h.algebraic _ (List.mem_map.2 ⟨a, ha, rfl⟩)
      · rw [← hb b hb']
        exact h.bus _ (List.mem_map.2 ⟨b, hb', rfl⟩)
    · intro h
      refine ⟨fun a ha => ?_, fun b hb' => ?_⟩
      · obtain ⟨a', ha', rfl⟩ := List.mem_map.1 ha
        rw [eval_subst]
        exact h.algebraic _ ha'
      · obtain ⟨b', hb'', rfl⟩ := List.mem_map.1 hb'
        rw [hb b' hb'']
        exact h.bus _ hb''
  · exact messages_map hb _ _ _ _

theorem foldl_subst_eval (l : List (V × GExpr p V)) (s : ConstraintSystem p V) (bus : Bus p)
    (f : ZMod p → Bool) (σ : V → ZMod p) :
    ((l.foldl (fun s x => s.mapExpr (GExpr.subst x.1 x.2)) s).Satisfied bus σ ↔
      s.Satisfied bus (beforeSubsts σ l)) ∧
    (l.foldl (fun s x => s.mapExpr (GExpr.subst x.1 x.2)) s).messages f σ =
      s.messages f (beforeSubsts σ l) := by
  induction l generalizing s with
  | nil => exact ⟨Iff.rfl, rfl⟩
  | cons y t ih =>
    obtain ⟨x, e⟩ := y
    rw [List.foldl_cons, beforeSubsts]
    obtain ⟨h1, h2⟩ := ih (s.mapExpr (GExpr.subst x e))
    obtain ⟨h3, h4⟩ := mapExpr_subst_eval s x e bus f (beforeSubsts σ t)
    exact ⟨h1.trans h3, h2.trans h4⟩

theorem foldl_subst_wf {l : List (V × GExpr p V)} (hl : ∀ x ∈ l, WF x.2)
    {s : ConstraintSystem p V} (hs : s.WF) :
    (l.foldl (fun s x => s.mapExpr (GExpr.subst x.1 x.2)) s).WF := by
  induction l generalizing s with
  | nil => exact hs
  | cons y t ih =>
    refine ih (fun z hz => hl z (List.mem_cons_of_mem _ hz)) ⟨fun a ha => ?_, fun b hb => ?_⟩
    · obtain ⟨a', ha', rfl⟩ := List.mem_map.1 ha
      exact wf_subst _ (hl y List.mem_cons_self) (hs.1 a' ha')
    · obtain ⟨b', hb', rfl⟩ := List.mem_map.1 hb
      exact busWF_map (fun e he => wf_subst _ (hl y List.mem_cons_self) he) (hs.2 b' hb')

theorem Solver.MadeFor.inv {bus : Bus p} {h : Handler p} (hs : h.Sound bus)
    {A : (V → ZMod p) → Prop} {s : Solver p V} (hm : s.MadeFor bus h A) : s.Inv := by
  obtain ⟨ops, outs, h1, h2, -⟩ := hm
  have := runOps_spec (V := V) hs Solver.inv_new h1
  rw [h2] at this
  exact this.1

theorem originalAssignments_wf : ∀ {l : List (SVar V × GExpr p (SVar V))}
    {r : List (V × GExpr p V)}, (∀ x ∈ l, WF x.2 ∧ x.2.isAffine = true) →
    originalAssignments l = .ok r → ∀ y ∈ r, WF y.2 := by
  intro l
  induction l with
  | nil => intro r _ h; cases h; simp
  | cons x t ih =>
    intro r hl h
    obtain ⟨x, e⟩ := x
    obtain ⟨hw, ha⟩ := hl (x, e) (by simp)
    rw [originalAssignments, if_pos ha] at h
    cases h1 : originalAssignments t with
    | error y => rw [h1] at h; cases h
    | ok r1 =>
      rw [h1, Solver.stop_bind, Solver.stop_pure] at h
      cases h
      intro y hy
      rcases List.mem_append.1 hy with hy | hy
      · rw [Option.mem_toList, Option.bind_eq_some_iff] at hy
        obtain ⟨v, hv, hy⟩ := hy
        rw [Option.map_eq_some_iff] at hy
        obtain ⟨e', he, rfl⟩ := hy
        refine (eval_transformVars (fun u u' w h1 h2 => ?_) 0 0 (fun u w hu => rfl) hw he).2
        cases u <;> simp [SVar.tryToOriginal] at h1
        cases u' <;> simp [SVar.tryToOriginal] at h2
        rw [h1, h2]
      · exact ih (fun z hz => hl z (by simp [hz])) h1 y hy

theorem solve_assignments_wf {bus : Bus p} {h : Handler p} (hs : h.Sound bus) {s s' : Solver p V}
    (hi : s.Inv) {ch : Choices p V} {l : List (V × GExpr p V)}
    (hr : SolverOp.run h s (.solve ch) = .ok (.assignments l, s')) : ∀ x ∈ l, WF x.2 := by
  rw [SolverOp.run] at hr
  have hsp := Solver.solve_op_spec hs ch hi
  cases h1 : s.solve h ch with
  | error x => rw [h1] at hr; cases hr
  | ok r =>
    rw [h1] at hsp
    rw [h1, Solver.stop_bind] at hr
    cases h2 : originalAssignments r.1 with
    | error x => rw [h2] at hr; cases hr
    | ok l' =>
      rw [h2, Solver.stop_bind, Solver.stop_pure] at hr
      cases hr
      exact originalAssignments_wf hsp.2.2 h2

theorem eval_sub_const {a b : GExpr p V} (σ : V → ZMod p) :
    (sub a b).eval σ = 0 ↔ b.eval σ = a.eval σ := by
  rw [eval_sub_zero_iff, eq_comm]

theorem numberField_replacement (solver : Solver p V) : Replacement (numberField solver) := by
  intro e
  unfold numberField
  split
  · exact .inr ⟨_, _, rfl, fun σ => eval_sub_const σ⟩
  · exact .inl rfl

theorem constantField_replacement (solver : Solver p V) : Replacement (constantField solver) := by
  intro e
  unfold constantField
  split
  · exact .inl rfl
  · split
    · exact .inr ⟨_, _, rfl, fun σ => eval_sub_zero_iff σ⟩
    · exact .inl rfl

/-- What the solver says about an expression, for every solution it was made for. -/
theorem Solver.MadeFor.queries {bus : Bus p} {h : Handler p} (hs : h.Sound bus)
    {A : (V → ZMod p) → Prop} {s : Solver p V} (hm : s.MadeFor bus h A) {σ : V → ZMod p}
    (hσ : A σ) :
    (∀ v, (s.get v).Allows (σ v)) ∧
    (∀ e, WF e → (s.rangeConstraintForExpression e).Allows (eval σ e)) ∧
    ∀ e k, WF e → s.equivalentConstant e = some k → eval σ e = k := by
  obtain ⟨ops, outs, h1, h2, h3⟩ := hm
  obtain ⟨q1, q2, q3⟩ := C21_queries_correct bus h hs ops h1 outs s h2 σ (h3 σ hσ)
  exact ⟨fun v => (RangeConstraint.allowsValue_iff _ _).1 (q1 v),
    fun e he => (RangeConstraint.allowsValue_iff _ _).1 (q2 e he), q3⟩

theorem numberField_eval {bus : Bus p} {h : Handler p} (hs : h.Sound bus)
    {A : (V → ZMod p) → Prop} {s : Solver p V} (hm : s.MadeFor bus h A) {σ : V → ZMod p}
    (hσ : A σ) {e : GExpr p V} (he : WF e) : (numberField s e).1.eval σ = e.eval σ := by
  unfold numberField tryReplaceByNumber
  split
  · rename_i n hn
    split at hn
    · cases hn
    · rw [Option.map_eq_some_iff] at hn
      obtain ⟨k, hk, rfl⟩ := hn
      have := (hm.queries hs hσ).2.1 e he
      rw [eval_const]
      exact ((RangeConstraint.tryToSingleValue_eq_some hk _).1 this).symm
  · rfl

theorem constantField_eval {bus : Bus p} {h : Handler p} (hs : h.Sound bus)
    {A : (V → ZMod p) → Prop} {s : Solver p V} (hm : s.MadeFor bus h A) {σ : V → ZMod p}
    (hσ : A σ) {e : GExpr p V} (he : WF e) : (constantField s e).1.eval σ = e.eval σ := by
  unfold constantField
  split
  · rfl
  · split
    · rename_i v hv
      rw [eval_const]
      exact ((hm.queries hs hσ).2.2 e v he hv).symm
    · rfl

theorem field_wf {r : GExpr p V → GExpr p V × List (GExpr p V)}
    (hr : ∀ e, WF e → WF (r e).1 ∧ ∀ q ∈ (r e).2, WF q) {s : ConstraintSystem p V} (hw : s.WF) :
    ({ s with
      bus := s.bus.map fun b => b.map fun f => (r f).1
      algebraic := s.algebraic ++ (s.bus.flatMap fun b => b.fields.map r).flatMap Prod.snd } :
      ConstraintSystem p V).WF := by
  refine ⟨fun e he => ?_, fun b hb => ?_⟩
  · simp only [List.mem_append] at he
    rcases he with he | he
    · exact hw.1 e he
    · obtain ⟨y, hy, he⟩ := List.mem_flatMap.1 he
      obtain ⟨b, hb, hy⟩ := List.mem_flatMap.1 hy
      obtain ⟨e', he', rfl⟩ := List.mem_map.1 hy
      exact (hr e' (hw.2 b hb e' he')).2 e he
  · obtain ⟨b', hb', rfl⟩ := List.mem_map.1 hb
    exact busWF_map (fun e he => (hr e he).1) (hw.2 b' hb')

theorem numberField_wf (solver : Solver p V) (e : GExpr p V) (he : WF e) :
    WF (numberField solver e).1 ∧ ∀ q ∈ (numberField solver e).2, WF q := by
  unfold numberField tryReplaceByNumber
  split
  · rename_i n hn
    have : WF n := by
      split at hn
      · cases hn
      · rw [Option.map_eq_some_iff] at hn
        obtain ⟨k, -, rfl⟩ := hn
        exact wf_const k
    exact ⟨this, fun q hq => by rw [List.mem_singleton] at hq; rw [hq]; exact wf_sub this he⟩
  · exact ⟨he, by simp⟩

theorem constantField_wf (solver : Solver p V) (e : GExpr p V) (he : WF e) :
    WF (constantField solver e).1 ∧ ∀ q ∈ (constantField solver e).2, WF q := by
  unfold constantField
  split
  · exact ⟨he, by simp⟩
  · split
    · exact ⟨wf_const _, fun q hq => by
        rw [List.mem_singleton] at hq; rw [hq]; exact wf_sub he (wf_const _)⟩
    · exact ⟨he, by simp⟩

theorem solverBased_ok {h : Handler p} {ch : Choices p V} {ix : Indexed p V} {solver : Solver p V}
    {s' : ConstraintSystem p V} {l : List (V × GExpr p V)} {solver' : Solver p V}
    (hr : solverBased h ch ix solver = .ok (s', l, solver')) :
    SolverOp.run h solver (.solve ch) = .ok (.assignments l, solver') ∧
    s' = { (ix.applySubsts l).sys with
      bus := (ix.applySubsts l).sys.bus.map fun b => b.map fun f => (numberField solver' f).1
      algebraic := (ix.applySubsts l).sys.algebraic ++ ((ix.applySubsts l).sys.bus.flatMap fun b =>
        b.fields.map (numberField solver')).flatMap Prod.snd } := by
  unfold solverBased at hr
  cases h1 : SolverOp.run h solver (.solve ch) with
  | error x => rw [h1] at hr; cases hr
  | ok r =>
    obtain ⟨out, sv⟩ := r
    rw [h1, Solver.stop_bind] at hr
    cases out with
    | unit => cases hr
    | different d => cases hr
    | assignments l' =>
      simp only at hr
      split at hr
      · cases hr
      · cases hr
        exact ⟨rfl, rfl⟩

theorem solverBased_sound {h : Handler p} {ch : Choices p V} {ix : Indexed p V} (hi : ix.Inv)
    {solver : Solver p V} {s' : ConstraintSystem p V} {l : List (V × GExpr p V)}
    {solver' : Solver p V} (hr : solverBased h ch ix solver = .ok (s', l, solver')) (bus : Bus p)
    (f : ZMod p → Bool) {σ : V → ZMod p} (hσ : s'.Satisfied bus σ) :
    ix.sys.Satisfied bus (beforeSubsts σ l) ∧
    ix.sys.messages f (beforeSubsts σ l) = s'.messages f σ := by
  obtain ⟨-, rfl⟩ := solverBased_ok hr
  rw [(numberField_replacement solver').satisfied] at hσ
  obtain ⟨h1, h2⟩ := hσ
  rw [applySubsts_sys hi] at h1 h2 ⊢
  obtain ⟨k1, k2⟩ := foldl_subst_eval l ix.sys bus f σ
  refine ⟨k1.1 h1, k2.symm.trans ?_⟩
  exact (messages_map (fun b hb => evalAt_map_of_fields (h2 b hb)) _ _ _ _).symm

theorem solverBased_complete {bus : Bus p} {h : Handler p} (hs : h.Sound bus)
    {A : (V → ZMod p) → Prop} {ch : Choices p V} {ix : Indexed p V} (hi : ix.Inv)
    (hw : ix.sys.WF) {solver : Solver p V} (hm : solver.MadeFor bus h A)
    {s' : ConstraintSystem p V} {l : List (V × GExpr p V)}
    {solver' : Solver p V} (hr : solverBased h ch ix solver = .ok (s', l, solver'))
    (f : ZMod p → Bool) :
    s'.WF ∧ solver'.MadeFor bus h A ∧ ∀ σ, A σ → (∀ x ∈ l, σ x.1 = eval σ x.2) ∧
      (ix.sys.Satisfied bus σ → s'.Satisfied bus σ ∧ s'.messages f σ = ix.sys.messages f σ) := by
  obtain ⟨h1, rfl⟩ := solverBased_ok hr
  obtain ⟨m1, a1⟩ := hm.run hs (op := .solve ch) trivial h1 (fun _ _ => trivial)
  have hwl := solve_assignments_wf hs (hm.inv hs) h1
  rw [applySubsts_sys hi]
  have hw' := foldl_subst_wf hwl hw
  refine ⟨field_wf (numberField_wf solver') hw', m1, fun σ hσ => ?_⟩
  have ha : ∀ x ∈ l, σ x.1 = eval σ x.2 := a1 σ hσ
  refine ⟨ha, fun hsat => ?_⟩
  obtain ⟨k1, k2⟩ := foldl_subst_eval l ix.sys bus f σ
  rw [beforeSubsts_of_holds ha] at k1 k2
  have hf := fun b hb e he => numberField_eval hs m1 hσ (hw'.2 b hb e he)
  rw [(numberField_replacement solver').satisfied]
  refine ⟨⟨k1.2 hsat, hf⟩, ?_⟩
  rw [← k2]
  exact messages_map (fun b hb => evalAt_map_of_fields (hf b hb)) _ _ _ _

theorem solverBased_derived {bus : Bus p} {h : Handler p} (hs : h.Sound bus)
    {A : (V → ZMod p) → Prop} {ch : Choices p V} {ix : Indexed p V} (hi : ix.Inv)
    {solver : Solver p V} (hm : solver.MadeFor bus h A)
    {s' : ConstraintSystem p V} {l : List (V × GExpr p V)}
    {solver' : Solver p V} (hr : solverBased h ch ix solver = .ok (s', l, solver'))
    {σ : V → ZMod p} (hσ : A σ) (hd : DerivedGood σ ix.sys.derived) : DerivedGood σ s'.derived := by
  obtain ⟨h1, rfl⟩ := solverBased_ok hr
  obtain ⟨-, a1⟩ := hm.run hs (op := .solve ch) trivial h1 (fun _ _ => trivial)
  have hwl := solve_assignments_wf hs (hm.inv hs) h1
  rw [applySubsts_sys hi]
  exact derivedGood_foldl_subst hwl (a1 σ hσ) hd

theorem simplifyExhaustive_derived {ix : Indexed p V} {rc : V → RangeConstraint p}
    {s' : ConstraintSystem p V} (h : simplifyExhaustive ix rc = .ok s') :
    s'.derived = ix.sys.derived := by
  obtain ⟨subs, -, rfl | rfl⟩ := simplifyExhaustive_ok h <;> rfl

theorem substituteBusFields_sound {solver : Solver p V} {s : ConstraintSystem p V} {bus : Bus p}
    (f : ZMod p → Bool) {σ : V → ZMod p} (hσ : (substituteBusFields solver s).Satisfied bus σ) :
    s.Satisfied bus σ ∧ (substituteBusFields solver s).messages f σ = s.messages f σ := by
  unfold substituteBusFields at hσ ⊢
  rw [(constantField_replacement solver).satisfied] at hσ
  exact ⟨hσ.1, messages_map (fun b hb => evalAt_map_of_fields (hσ.2 b hb)) _ _ _ _⟩

theorem substituteBusFields_complete {bus : Bus p} {h : Handler p} (hs : h.Sound bus)
    {A : (V → ZMod p) → Prop} {solver : Solver p V} (hm : solver.MadeFor bus h A)
    {s : ConstraintSystem p V} (hw : s.WF) {σ : V → ZMod p} (hA : A σ)
    (hσ : s.Satisfied bus σ) : (substituteBusFields solver s).Satisfied bus σ := by
  unfold substituteBusFields
  rw [(constantField_replacement solver).satisfied]
  exact ⟨hσ, fun b hb e he => constantField_eval hs hm hA (hw.2 b hb e he)⟩

theorem substituteBusFields_wf (solver : Solver p V) {s : ConstraintSystem p V} (hw : s.WF) :
    (substituteBusFields solver s).WF := field_wf (constantField_wf solver) hw

/-- The solver made from a system is made for its solutions. -/
theorem newSolver_madeFor {bus : Bus p} {h : Handler p} {s : ConstraintSystem p V} (hw : s.WF)
    {solver : Solver p V} (hr : newSolver s = .ok solver) :
    solver.MadeFor bus h fun σ => s.Satisfied bus σ := by
  unfold newSolver at hr
  cases h1 : (Solver.new (p := p) (V := V)).addAlgebraic (s.algebraic.map transformExpr) with
  | error x => rw [h1] at hr; cases hr
  | ok s1 =>
    rw [h1] at hr
    simp only [Solver.stop_bind] at hr
    refine ⟨[.addAlgebraic s.algebraic, .addBus s.bus], [.unit, .unit], ?_, ?_, ?_⟩
    · intro op hop
      simp only [List.mem_cons, List.not_mem_nil, or_false] at hop
      rcases hop with rfl | rfl
      · exact hw.1
      · exact hw.2
    · have e1 : SolverOp.run h Solver.new (.addAlgebraic s.algebraic) = .ok (.unit, s1) := by
        rw [SolverOp.run, h1]; rfl
      have e2 : SolverOp.run h s1 (.addBus s.bus) = .ok (.unit, solver) := by
        rw [SolverOp.run, hr]; rfl
      simp only [runOps]
      rw [e1, Solver.stop_bind, e2]
      rfl
    · intro σ hσ op hop
      simp only [List.mem_cons, List.not_mem_nil, or_false] at hop
      rcases hop with rfl | rfl
      · exact hσ.algebraic
      · exact hσ.bus

end Verif
