import Verif.Model.Inliner
import Verif.Proofs.Indexed
import Verif.Proofs.Derived
import Verif.Proofs.Solve
import Verif.Proofs.ConstraintSystem
import Mathlib.Data.Finset.Card
import Mathlib.Data.Finset.Dedup
import Mathlib.Data.List.Nodup

/-! Proofs about the inliner. -/

namespace Verif

open GExpr

set_option linter.unusedSectionVars false

variable {p : ℕ} {V : Type} [LinearOrder V]

/-! ### Virtual degree -/

theorem foldl_max_le {l : List ℕ} {a D : ℕ} :
    l.foldl Nat.max a ≤ D ↔ a ≤ D ∧ ∀ x ∈ l, x ≤ D := by
  induction l generalizing a with
  | nil => simp
  | cons b t ih =>
    rw [List.foldl_cons, ih]
    have : Nat.max a b ≤ D ↔ a ≤ D ∧ b ≤ D := Nat.max_le
    simp only [this, List.mem_cons, forall_eq_or_imp, and_assoc]

theorem virtualDegrees_eq (x : V) (d : ℕ) (q : List (GExpr p V × GExpr p V)) :
    virtualDegrees x d q = q.map fun ab => virtualDegree x d ab.1 + virtualDegree x d ab.2 := by
  induction q with
  | nil => rw [virtualDegrees]; rfl
  | cons ab t ih => obtain ⟨a, b⟩ := ab; rw [virtualDegrees, ih]; rfl

theorem virtualDegree_le_iff {x : V} {d D : ℕ} {q : List (GExpr p V × GExpr p V)}
    {l : List (V × ZMod p)} {c : ZMod p} : virtualDegree x d (mk q l c) ≤ D ↔
      (∀ ab ∈ q, virtualDegree x d ab.1 + virtualDegree x d ab.2 ≤ D) ∧
      ∀ e ∈ l, (if e.1 = x then d else 1) ≤ D := by
  rw [virtualDegree, foldl_max_le, virtualDegrees_eq]
  simp only [Nat.zero_le, true_and, List.mem_append, List.mem_map]
  constructor
  · intro h
    exact ⟨fun ab hab => h _ (Or.inl ⟨ab, hab, rfl⟩), fun e he => h _ (Or.inr ⟨e, he, rfl⟩)⟩
  · rintro ⟨h1, h2⟩ _ (⟨ab, hab, rfl⟩ | ⟨e, he, rfl⟩)
    · exact h1 ab hab
    · exact h2 e he

theorem degree_toAdd' {x : V} {s : GExpr p V} (d : ℕ) (l : List (V × ZMod p))
    (hs : (∃ e ∈ l, e.1 = x) → degree s ≤ d) {acc : GExpr p V} (hacc : degree acc ≤ d) :
    degree (l.foldl (fun acc e => if e.1 = x then add acc (scale e.2 s) else acc) acc) ≤ d := by
  induction l generalizing acc with
  | nil => exact hacc
  | cons e t ih =>
    rw [List.foldl_cons]
    apply ih (fun ⟨e, h, h'⟩ => hs ⟨e, List.mem_cons_of_mem _ h, h'⟩)
    split
    · rename_i hx
      exact degree_add_closed _ _ _ hacc (le_trans (degree_scale_le _ _) (hs ⟨e, by simp, hx⟩))
    · exact hacc

theorem degree_le_virtual_of_not_mem {x : V} {d : ℕ} {e : GExpr p V} (h : x ∉ vars e) :
    degree e ≤ virtualDegree x d e := by
  induction e using ind with
  | h q l c ih =>
    obtain ⟨h1, h2⟩ := virtualDegree_le_iff.1 (Nat.le_refl (virtualDegree x d (mk q l c)))
    rw [degree_le_iff]
    constructor
    · intro ab hab
      have i1 := (ih ab hab).1 fun hx => h (mem_vars_mk.2 (Or.inl ⟨ab, hab, Or.inl hx⟩))
      have i2 := (ih ab hab).2 fun hx => h (mem_vars_mk.2 (Or.inl ⟨ab, hab, Or.inr hx⟩))
      have := h1 ab hab
      omega
    · intro hne
      obtain ⟨e, he⟩ := List.exists_mem_of_ne_nil _ hne
      have := h2 e he
      rwa [if_neg] at this
      rintro rfl
      exact h (mem_vars_mk.2 (Or.inr ⟨e.2, he⟩))

theorem degree_subst_le_virtual (x : V) (s e : GExpr p V) :
    degree (subst x s e) ≤ virtualDegree x (degree s) e := by
  induction e using ind with
  | h q l c ih =>
    by_cases hx : x ∈ vars (mk q l c)
    · rw [subst, if_neg (not_not.2 hx)]
      obtain ⟨h1, h2⟩ := virtualDegree_le_iff.1
        (Nat.le_refl (virtualDegree x (degree s) (mk q l c)))
      generalize virtualDegree x (degree s) (mk q l c) = D at h1 h2 ⊢
      have hpair : ∀ ab ∈ q, degree (subst x s ab.1) + degree (subst x s ab.2) ≤ D := by
        intro ab hab
        have i1 := (ih ab hab).1
        have i2 := (ih ab hab).2
        have i3 := h1 ab hab
        omega
      obtain ⟨k1, k2⟩ := substQ_spec (x := x) (s := s)
        (P := fun e => degree e ≤ D) (degree_add_closed _) (q := q)
        (fun ab hab e he => le_trans (degree_collapseTerm he) (hpair ab hab))
        (t := l.foldl (fun acc e => if e.1 = x then add acc (scale e.2 s) else acc) zero)
        (degree_toAdd' _ l (fun ⟨e, he, hex⟩ => by
          have := h2 e he
          rwa [if_pos hex] at this) (by rw [degree_zero]; omega))
      simp only
      refine degree_add_closed _ _ _ ?_ k1
      rw [degree_le_iff]
      constructor
      · intro cd hcd
        obtain ⟨-, -, ab, hab, rfl⟩ := k2 cd (removeQuadraticTermsAddingToZero_subset _ hcd)
        exact hpair ab hab
      · intro hne
        obtain ⟨e, he⟩ := List.exists_mem_of_ne_nil _ hne
        have := List.mem_filter.1 he
        have h3 := h2 e this.1
        rwa [if_neg (by simpa using this.2)] at h3
    · rw [subst_of_not_mem hx]
      exact degree_le_virtual_of_not_mem hx

theorem mem_systemVars {s : ConstraintSystem p V} {v : V} :
    v ∈ systemVars s ↔ (∃ e ∈ s.algebraic, v ∈ vars e) ∨
      ∃ b ∈ s.bus, ∃ e ∈ b.fields, v ∈ vars e := by
  simp only [systemVars, List.mem_append, List.mem_flatMap, busVars]

theorem busFields_map (f : GExpr p V → GExpr p V) (b : BusInteraction (GExpr p V)) :
    (b.map f).fields = b.fields.map f := by
  simp [BusInteraction.map, BusInteraction.fields]

/-! ### Candidates -/

variable [Fact p.Prime]

theorem findInlinable_spec {e : GExpr p V} (hw : WF e) (l : List V) :
    ∃ r, findInlinable e l = .ok r ∧ ∀ y ∈ r, trySolveFor e y.1 = .ok (some y.2) := by
  induction l with
  | nil => exact ⟨[], rfl, by simp⟩
  | cons x t ih =>
    obtain ⟨r, hr, hr'⟩ := ih
    obtain ⟨o, ho, hs⟩ := trySolveFor_spec hw x
    rw [findInlinable, ho]
    cases o with
    | none => exact ⟨r, hr, hr'⟩
    | some rhs =>
      refine ⟨(x, rhs) :: r, ?_, ?_⟩
      · simp only [ok_bind, hr]
        rw [if_neg (hs rhs rfl).2.2.1]
        rfl
      · intro y hy
        rcases List.mem_cons.1 hy with rfl | hy
        · exact ho
        · exact hr' y hy

/-! ### Invariant -/

theorem systemVars_mapSubst {s : ConstraintSystem p V} {x : V} {r : GExpr p V} {v : V}
    (h : v ∈ systemVars (s.mapExpr (GExpr.subst x r))) :
    (v ∈ systemVars s ∧ v ≠ x) ∨ v ∈ vars r := by
  rw [mem_systemVars] at h
  rcases h with ⟨e, he, hv⟩ | ⟨b, hb, e, he, hv⟩
  · simp only [ConstraintSystem.mapExpr, List.mem_map] at he
    obtain ⟨e', he', rfl⟩ := he
    rcases vars_subst _ _ hv with h | h
    · exact Or.inl ⟨mem_systemVars.2 (Or.inl ⟨e', he', h.1⟩), h.2⟩
    · exact Or.inr h.1
  · simp only [ConstraintSystem.mapExpr, List.mem_map] at hb
    obtain ⟨b', hb', rfl⟩ := hb
    rw [busFields_map] at he
    obtain ⟨e', he', rfl⟩ := List.mem_map.1 he
    rcases vars_subst _ _ hv with h | h
    · exact Or.inl ⟨mem_systemVars.2 (Or.inr ⟨b', hb', e', he', h.1⟩), h.2⟩
    · exact Or.inr h.1

theorem evalAt_mapSubst (σ : V → ZMod p) (x : V) (r : GExpr p V)
    (b : BusInteraction (GExpr p V)) :
    (b.map (GExpr.subst x r)).evalAt σ = b.evalAt (Function.update σ x (eval σ r)) := by
  simp only [BusInteraction.map, BusInteraction.evalAt, List.map_map]
  rw [eval_subst, eval_subst]
  congr 1
  apply List.map_congr_left
  intro e _
  exact eval_subst σ x r e

theorem satisfied_mapSubst {bus : Bus p} {s : ConstraintSystem p V} {x : V} {r : GExpr p V}
    {σ : V → ZMod p} : (s.mapExpr (GExpr.subst x r)).Satisfied bus σ ↔
      s.Satisfied bus (Function.update σ x (eval σ r)) := by
  constructor
  · rintro ⟨h1, h2⟩
    refine ⟨fun e he => ?_, fun b hb => ?_⟩
    · rw [← eval_subst]; exact h1 _ (List.mem_map_of_mem he)
    · rw [← evalAt_mapSubst]; exact h2 _ (List.mem_map_of_mem hb)
  · rintro ⟨h1, h2⟩
    refine ⟨fun e he => ?_, fun b hb => ?_⟩
    · obtain ⟨e', he', rfl⟩ := List.mem_map.1 he
      rw [eval_subst]; exact h1 _ he'
    · obtain ⟨b', hb', rfl⟩ := List.mem_map.1 hb
      rw [evalAt_mapSubst]; exact h2 _ hb'

theorem wf_mapSubst {s : ConstraintSystem p V} {x : V} {r : GExpr p V} (hs : s.WF) (hr : WF r) :
    (s.mapExpr (GExpr.subst x r)).WF := by
  constructor
  · intro e he
    obtain ⟨e', he', rfl⟩ := List.mem_map.1 he
    exact wf_subst x hr (hs.1 e' he')
  · intro b hb
    obtain ⟨b', hb', rfl⟩ := List.mem_map.1 hb
    intro e he
    rw [busFields_map] at he
    obtain ⟨e', he', rfl⟩ := List.mem_map.1 he
    exact wf_subst x hr (hs.2 b' hb' e' he')

/-- What holds throughout inlining. -/
structure InlineInv (s0 : ConstraintSystem p V) (st : InlineState p V) : Prop where
  ix : st.ix.Inv
  wf : st.ix.sys.WF
  len : st.ix.sys.algebraic.length = s0.algebraic.length
  removedLt : ∀ i ∈ st.toRemove, i < s0.algebraic.length
  removedNodup : st.toRemove.Nodup
  removedLen : st.toRemove.length = st.subs.length
  removed : ∀ i ∈ st.toRemove, ∀ e, st.ix.sys.algebraic[i]? = some e →
    ∀ σ : V → ZMod p, eval σ e = 0
  equiv : ∀ (bus : Bus p) (σ : V → ZMod p), s0.Satisfied bus σ ↔
    st.ix.sys.Satisfied bus σ ∧ ∀ y ∈ st.subs, σ y.1 = eval σ y.2
  gone : ∀ y ∈ st.subs, y.1 ∉ systemVars st.ix.sys
  self : ∀ y ∈ st.subs, y.1 ∉ vars y.2
  tri : st.subs.Pairwise fun a b => b.1 ≠ a.1 ∧ b.1 ∉ vars a.2
  sysVars : ∀ v ∈ systemVars st.ix.sys, v ∈ systemVars s0
  subVars : ∀ y ∈ st.subs, y.1 ∈ systemVars s0 ∧ ∀ v ∈ vars y.2, v ∈ systemVars s0
  sent : ∀ σ : V → ZMod p, (∀ y ∈ st.subs, σ y.1 = eval σ y.2) →
    st.ix.sys.bus.map (BusInteraction.evalAt σ) = s0.bus.map (BusInteraction.evalAt σ)
  derived : ∀ σ : V → ZMod p, (∀ y ∈ st.subs, σ y.1 = eval σ y.2) → DerivedGood σ s0.derived →
    DerivedGood σ st.ix.sys.derived

/-- The degree part of the invariant. -/
structure DegreeInv (bound : DegreeBound) (s0 : ConstraintSystem p V) (s : ConstraintSystem p V) :
    Prop where
  alg : ∀ e ∈ s.algebraic, e.degree ≤ bound.identities ∨ e ∈ s0.algebraic
  bus : ∀ b ∈ s.bus, (∀ e ∈ b.fields, e.degree ≤ bound.busInteractions) ∨ b ∈ s0.bus

/-- The callback only agrees to substitutions that keep the degree bound. -/
def RespectsBound (bound : DegreeBound) (should : ShouldInline p V) : Prop :=
  ∀ x e s, should x e s = .ok true → belowDegreeBound bound x e s = .ok true

theorem inline_step {s0 : ConstraintSystem p V} {st : InlineState p V} (h : InlineInv s0 st)
    {i : ℕ} {e : GExpr p V} (hi : st.ix.sys.algebraic[i]? = some e) {x : V} {r : GExpr p V}
    (hs : trySolveFor e x = .ok (some r)) :
    InlineInv s0 ⟨st.ix.subst x r, i :: st.toRemove, subsInsert x r st.subs⟩ := by
  have hmem : e ∈ st.ix.sys.algebraic := List.mem_iff_getElem?.2 ⟨i, hi⟩
  obtain ⟨o, ho, hsp⟩ := trySolveFor_spec (h.wf.1 e hmem) x
  rw [hs] at ho
  cases ho
  obtain ⟨hwr, heq, hxr, hsub, hxe⟩ := hsp r rfl
  have hxs : x ∈ systemVars st.ix.sys := mem_systemVars.2 (Or.inl ⟨e, hmem, hxe⟩)
  have hrs : ∀ v ∈ vars r, v ∈ systemVars st.ix.sys := fun v hv =>
    mem_systemVars.2 (Or.inl ⟨e, hmem, hsub v hv⟩)
  have hins : subsInsert x r st.subs = (x, r) :: st.subs := by
    rw [subsInsert, List.filter_eq_self.2]
    intro y hy
    simp only [ne_eq, decide_not, Bool.not_eq_eq_eq_not, Bool.not_true, decide_eq_false_iff_not]
    rintro rfl
    exact h.gone y hy hxs
  have hsys := Indexed.subst_sys h.ix x r
  have hr_upd : ∀ σ : V → ZMod p, eval (Function.update σ x (eval σ r)) r = eval σ r := fun σ => by
    apply eval_congr
    intro v hv
    rw [Function.update_of_ne]
    rintro rfl
    exact hxr hv
  have hzero : ∀ σ : V → ZMod p, eval (Function.update σ x (eval σ r)) e = 0 := fun σ => by
    rw [heq, Function.update_self, hr_upd]
  have hnot : i ∉ st.toRemove := by
    intro hin
    have h0 := h.removed i hin e hi
    have h1 := (heq fun _ => (0 : ZMod p)).1 (h0 _)
    let τ : V → ZMod p := Function.update (fun _ => (0 : ZMod p)) x 1
    have h2 := (heq τ).1 (h0 τ)
    have h3 : eval τ r = eval (fun _ => (0 : ZMod p)) r := by
      apply eval_congr
      intro v hv
      exact Function.update_of_ne (by rintro rfl; exact hxr hv) _ _
    rw [h3, ← h1] at h2
    simp only [τ, Function.update_self] at h2
    exact one_ne_zero h2
  refine ⟨Indexed.inv_subst h.ix x r, ?_, ?_, ?_, ?_, ?_, ?_, ?_, ?_, ?_, ?_, ?_, ?_, ?_, ?_⟩
  · change (st.ix.subst x r).sys.WF
    rw [hsys]; exact wf_mapSubst h.wf hwr
  · change (st.ix.subst x r).sys.algebraic.length = _
    rw [hsys]; simp [ConstraintSystem.mapExpr, h.len]
  · intro j hj
    rcases List.mem_cons.1 hj with rfl | hj
    · rw [← h.len]; exact (List.getElem?_eq_some_iff.1 hi).1
    · exact h.removedLt j hj
  · exact List.nodup_cons.2 ⟨hnot, h.removedNodup⟩
  · simp only [hins, List.length_cons, h.removedLen]
  · intro j hj e' he' σ
    change (st.ix.subst x r).sys.algebraic[j]? = _ at he'
    rw [hsys] at he'
    simp only [ConstraintSystem.mapExpr, List.getElem?_map, Option.map_eq_some_iff] at he'
    obtain ⟨e'', he'', rfl⟩ := he'
    rw [eval_subst]
    rcases List.mem_cons.1 hj with rfl | hj
    · rw [hi] at he''; cases he''
      exact hzero σ
    · exact h.removed j hj e'' he'' _
  · intro bus σ
    change _ ↔ (st.ix.subst x r).sys.Satisfied bus σ ∧ _
    rw [hsys, hins, satisfied_mapSubst, h.equiv]
    have hup : σ x = eval σ r → Function.update σ x (eval σ r) = σ := fun hx => by
      rw [← hx, Function.update_eq_self]
    constructor
    · rintro ⟨h1, h2⟩
      have hx := (heq σ).1 (h1.algebraic e hmem)
      refine ⟨by rwa [hup hx], ?_⟩
      intro y hy
      rcases List.mem_cons.1 hy with rfl | hy
      · exact hx
      · exact h2 y hy
    · rintro ⟨h1, h2⟩
      have hx := h2 (x, r) List.mem_cons_self
      rw [hup hx] at h1
      exact ⟨h1, fun y hy => h2 y (List.mem_cons_of_mem _ hy)⟩
  · intro y hy
    change _ ∉ systemVars (st.ix.subst x r).sys
    rw [hsys]
    intro hv
    simp only [hins] at hy
    rcases systemVars_mapSubst hv with h' | h'
    · rcases List.mem_cons.1 hy with rfl | hy
      · exact h'.2 rfl
      · exact h.gone y hy h'.1
    · rcases List.mem_cons.1 hy with rfl | hy
      · exact hxr h'
      · exact h.gone y hy (hrs _ h')
  · intro y hy
    simp only [hins] at hy
    rcases List.mem_cons.1 hy with rfl | hy
    · exact hxr
    · exact h.self y hy
  · simp only [hins]
    refine List.pairwise_cons.2 ⟨fun y hy => ⟨?_, fun hv => h.gone y hy (hrs _ hv)⟩, h.tri⟩
    intro hyx
    exact h.gone y hy (hyx ▸ hxs)
  · intro v hv
    change v ∈ systemVars (st.ix.subst x r).sys at hv
    rw [hsys] at hv
    rcases systemVars_mapSubst hv with h' | h'
    · exact h.sysVars v h'.1
    · exact h.sysVars v (hrs v h')
  · intro y hy
    simp only [hins] at hy
    rcases List.mem_cons.1 hy with rfl | hy
    · exact ⟨h.sysVars _ hxs, fun v hv => h.sysVars v (hrs v hv)⟩
    · exact h.subVars y hy
  · intro σ hσ
    simp only [hins] at hσ
    rw [← h.sent σ fun y hy => hσ y (List.mem_cons_of_mem _ hy)]
    change (st.ix.subst x r).sys.bus.map _ = _
    rw [hsys]
    simp only [ConstraintSystem.mapExpr, List.map_map]
    refine List.map_congr_left fun b _ => ?_
    rw [Function.comp_apply, evalAt_mapSubst, ← hσ (x, r) List.mem_cons_self,
      Function.update_eq_self]
  · intro σ hσ hd
    simp only [hins] at hσ
    change DerivedGood σ (st.ix.subst x r).sys.derived
    rw [hsys]
    exact derivedGood_subst hwr (hσ (x, r) List.mem_cons_self)
      (h.derived σ (fun y hy => hσ y (List.mem_cons_of_mem _ hy)) hd)

theorem degree_step {bound : DegreeBound} {s0 : ConstraintSystem p V} {ix : Indexed p V}
    (hi : ix.Inv) (h : DegreeInv bound s0 ix.sys) {x : V} {r : GExpr p V}
    (hb : belowDegreeBound bound x r ix = .ok true) : DegreeInv bound s0 (ix.subst x r).sys := by
  rw [Indexed.subst_sys hi]
  rw [belowDegreeBound, Indexed.constraintsReferencing_ok hi] at hb
  simp only [ok_bind] at hb
  have hall := Except.ok.inj hb
  rw [List.all_eq_true] at hall
  constructor
  · intro e he
    obtain ⟨e', he', rfl⟩ := List.mem_map.1 he
    by_cases hx : x ∈ vars e'
    · left
      obtain ⟨i, hi'⟩ := List.mem_iff_getElem?.1 he'
      have := hall (.alg e') (List.mem_filterMap.2 ⟨.alg i,
        Indexed.mem_itemsReferencing.2 ⟨x, by simp,
          hi.complete x (.alg i) ⟨e', hi', mem_vars_iff_occurs.1 hx⟩⟩, by simp [refAt, hi']⟩)
      simp only [refBelowBound, decide_eq_true_eq] at this
      exact le_trans (degree_subst_le_virtual x r e') this
    · rw [subst_of_not_mem hx]
      exact h.alg e' he'
  · intro b hb
    obtain ⟨b', hb', rfl⟩ := List.mem_map.1 hb
    by_cases hx : ∃ e ∈ b'.fields, x ∈ vars e
    · left
      obtain ⟨e1, he1, hx⟩ := hx
      obtain ⟨i, hi'⟩ := List.mem_iff_getElem?.1 hb'
      have := hall (.bus b') (List.mem_filterMap.2 ⟨.bus i,
        Indexed.mem_itemsReferencing.2 ⟨x, by simp,
          hi.complete x (.bus i) ⟨b', hi', e1, he1, mem_vars_iff_occurs.1 hx⟩⟩, by simp [refAt, hi']⟩)
      simp only [refBelowBound, List.all_eq_true, decide_eq_true_eq] at this
      intro e he
      rw [busFields_map] at he
      obtain ⟨e', he', rfl⟩ := List.mem_map.1 he
      exact le_trans (degree_subst_le_virtual x r e') (this e' he')
    · rw [busMap_of_forall fun e he => subst_of_not_mem fun hv => hx ⟨e, he, hv⟩]
      exact h.bus b' hb'

/-- Outcome of a part of the run: it preserves the invariants and does not decrease the number of
substitutions; if the callback does not panic, nothing panics. -/
def InlineSpec (should : ShouldInline p V) (s0 : ConstraintSystem p V) (st : InlineState p V)
    (r : Except Panic (InlineState p V)) : Prop :=
  (∀ st', r = .ok st' → InlineInv s0 st' ∧ st.subs.length ≤ st'.subs.length ∧
    ∀ bound, RespectsBound bound should → DegreeInv bound s0 st.ix.sys →
      DegreeInv bound s0 st'.ix.sys) ∧
  ((∀ x e s, s.Inv → ∃ b, should x e s = .ok b) → ∃ st', r = .ok st')

theorem inlineFirst_spec (should : ShouldInline p V) {s0 : ConstraintSystem p V}
    {st : InlineState p V} (h : InlineInv s0 st) {i : ℕ} {e : GExpr p V}
    (hi : st.ix.sys.algebraic[i]? = some e) (l : List (V × GExpr p V))
    (hl : ∀ y ∈ l, trySolveFor e y.1 = .ok (some y.2)) :
    InlineSpec should s0 st (inlineFirst should i st l) := by
  induction l with
  | nil =>
    refine ⟨fun st' h' => ?_, fun _ => ⟨st, rfl⟩⟩
    cases h'
    exact ⟨h, le_refl _, fun _ _ h => h⟩
  | cons y t ih =>
    obtain ⟨x, r⟩ := y
    have ih := ih fun y hy => hl y (List.mem_cons_of_mem _ hy)
    rw [inlineFirst]
    cases hsh : should x r st.ix with
    | error p =>
      refine ⟨fun st' h' => (by cases h'), fun htot => ?_⟩
      obtain ⟨b, hb⟩ := htot x r st.ix h.ix
      rw [hsh] at hb; cases hb
    | ok b =>
      rw [ok_bind]
      cases b with
      | false => exact ih
      | true =>
        refine ⟨fun st' h' => ?_, fun _ => ⟨_, rfl⟩⟩
        cases h'
        have hstep := inline_step h hi (hl (x, r) List.mem_cons_self)
        refine ⟨hstep, ?_, fun bound hb hd => ?_⟩
        · have := hstep.removedLen
          simp only [List.length_cons, h.removedLen] at this
          simp only
          omega
        · exact degree_step h.ix hd (hb x r st.ix hsh)

theorem inlineAt_spec (should : ShouldInline p V) {s0 : ConstraintSystem p V}
    {st : InlineState p V} (h : InlineInv s0 st) {i : ℕ} (hi : i < s0.algebraic.length) :
    InlineSpec should s0 st (inlineAt should i st) := by
  rw [inlineAt]
  cases he : st.ix.sys.algebraic[i]? with
  | none =>
    have := List.getElem?_eq_none_iff.1 he
    have := h.len
    omega
  | some e =>
    obtain ⟨r, hr, hr'⟩ := findInlinable_spec (h.wf.1 e (List.mem_iff_getElem?.2 ⟨i, he⟩))
      ((e.linear.map (·.1)).reverse)
    simp only [findInlinableVariables, hr, ok_bind]
    exact inlineFirst_spec should h he r hr'

theorem inlinePass_spec (should : ShouldInline p V) {s0 : ConstraintSystem p V} (l : List ℕ)
    (hl : ∀ i ∈ l, i < s0.algebraic.length) {st : InlineState p V} (h : InlineInv s0 st) :
    InlineSpec should s0 st (inlinePass should l st) := by
  induction l generalizing st with
  | nil =>
    refine ⟨fun st' h' => ?_, fun _ => ⟨st, rfl⟩⟩
    cases h'
    exact ⟨h, le_refl _, fun _ _ h => h⟩
  | cons i t ih =>
    obtain ⟨h1, h2⟩ := inlineAt_spec should h (hl i (by simp))
    rw [inlinePass]
    cases hs : inlineAt should i st with
    | error p =>
      refine ⟨fun st' h' => (by cases h'), fun htot => ?_⟩
      obtain ⟨b, hb⟩ := h2 htot
      rw [hs] at hb; cases hb
    | ok st1 =>
      rw [ok_bind]
      obtain ⟨k1, k2, k3⟩ := h1 st1 hs
      obtain ⟨h1', h2'⟩ := ih (fun j hj => hl j (List.mem_cons_of_mem _ hj)) k1
      refine ⟨fun st' h' => ?_, h2'⟩
      obtain ⟨m1, m2, m3⟩ := h1' st' h'
      exact ⟨m1, le_trans k2 m2, fun b hb hd => m3 b hb (k3 b hb hd)⟩

theorem subs_bounded {s0 : ConstraintSystem p V} {st : InlineState p V} (h : InlineInv s0 st) :
    st.subs.length ≤ (systemVars s0).dedup.length := by
  have hn : (st.subs.map (·.1)).Nodup := by
    rw [List.Nodup, List.pairwise_map]
    exact h.tri.imp fun h => h.1.symm
  have := hn.subperm (l₂ := (systemVars s0).dedup) (fun v hv => by
    obtain ⟨y, hy, rfl⟩ := List.mem_map.1 hv
    exact List.mem_dedup.2 (h.subVars y hy).1)
  simpa using this.length_le

theorem inlineLoop_spec (should : ShouldInline p V) {s0 : ConstraintSystem p V} (fuel : ℕ)
    {st : InlineState p V} (h : InlineInv s0 st) :
    (∀ st', inlineLoop should s0.algebraic.length fuel st = .ok (some st') → InlineInv s0 st' ∧
      ∀ bound, RespectsBound bound should → DegreeInv bound s0 st.ix.sys →
        DegreeInv bound s0 st'.ix.sys) ∧
    ((∀ x e s, s.Inv → ∃ b, should x e s = .ok b) →
      ∃ o, inlineLoop should s0.algebraic.length fuel st = .ok o ∧
        ((systemVars s0).dedup.length < fuel + st.subs.length → o ≠ none)) := by
  induction fuel generalizing st with
  | zero =>
    refine ⟨fun st' h' => (by cases h'), fun _ => ⟨none, rfl, fun hlt => ?_⟩⟩
    have := subs_bounded h
    omega
  | succ n ih =>
    obtain ⟨h1, h2⟩ := inlinePass_spec should (List.range s0.algebraic.length).reverse
      (fun i hi => by simpa using hi) h
    rw [inlineLoop]
    cases hs : inlinePass should (List.range s0.algebraic.length).reverse st with
    | error p =>
      refine ⟨fun st' h' => (by cases h'), fun htot => ?_⟩
      obtain ⟨b, hb⟩ := h2 htot
      rw [hs] at hb; cases hb
    | ok st1 =>
      rw [ok_bind]
      obtain ⟨k1, k2, k3⟩ := h1 st1 hs
      obtain ⟨i1, i2⟩ := ih k1
      split
      · refine ⟨fun st' h' => ?_, fun _ => ⟨some st1, rfl, fun _ h => by cases h⟩⟩
        cases h'
        exact ⟨k1, k3⟩
      · rename_i hne
        refine ⟨fun st' h' => ?_, fun htot => ?_⟩
        · obtain ⟨m1, m2⟩ := i1 st' h'
          exact ⟨m1, fun b hb hd => m2 b hb (k3 b hb hd)⟩
        · obtain ⟨o, ho, ho'⟩ := i2 htot
          exact ⟨o, ho, fun hlt => ho' (by omega)⟩

theorem inlineInv_init {s : Indexed p V} (hi : s.Inv) (hw : s.sys.WF) :
    InlineInv s.sys ⟨s, [], []⟩ :=
  ⟨hi, hw, rfl, by simp, by simp, rfl, by simp, by simp, by simp, by simp, by simp,
    fun _ h => h, by simp, fun _ _ => rfl, fun _ _ h => h⟩

theorem systemVars_retain {s : Indexed p V} {f : ℕ → GExpr p V → Bool} {v : V}
    (h : v ∈ systemVars (s.retainAlgebraic f).sys) : v ∈ systemVars s.sys := by
  rw [mem_systemVars] at *
  rcases h with ⟨e, he, hv⟩ | h
  · left
    simp only [Indexed.retainAlgebraic] at he
    obtain ⟨i, h1, -⟩ := mem_retainFrom.1 he
    exact ⟨e, List.mem_iff_getElem?.2 ⟨i, h1⟩, hv⟩
  · exact Or.inr h

theorem length_retainFrom {α : Type} (l : List α) (r : List ℕ) (n : ℕ) (hr : r.Nodup)
    (hlt : ∀ i ∈ r, n ≤ i ∧ i < n + l.length) :
    (Indexed.retainFrom (fun i (_ : α) => i ∉ r) n l).length + r.length = l.length := by
  induction l generalizing n r with
  | nil =>
    cases r with
    | nil => rfl
    | cons a t =>
      have := hlt a (by simp)
      simp only [List.length_nil] at this
      omega
  | cons a t ih =>
    rw [Indexed.retainFrom]
    by_cases hn : n ∈ r
    · rw [if_neg (by simpa using hn)]
      have hr' := hr.erase n
      have hmem : ∀ i, i ∈ r.erase n ↔ i ≠ n ∧ i ∈ r := fun i => hr.mem_erase_iff
      have := ih (r.erase n) (n + 1) hr' (fun i hi => by
        have h1 := (hmem i).1 hi
        have h2 := hlt i h1.2
        simp only [List.length_cons] at h2
        omega)
      rw [List.length_erase_of_mem hn] at this
      have hpos := List.length_pos_of_mem hn
      have hcongr : ∀ (l : List α) (m : ℕ), n < m →
          Indexed.retainFrom (fun i (_ : α) => decide (i ∉ r)) m l =
          Indexed.retainFrom (fun i (_ : α) => decide (i ∉ r.erase n)) m l := by
        intro l
        induction l with
        | nil => exact fun _ _ => rfl
        | cons b t ih2 =>
          intro m hm
          rw [Indexed.retainFrom, Indexed.retainFrom, ih2 (m + 1) (by omega)]
          have : (m ∉ r) ↔ (m ∉ r.erase n) := by
            rw [hmem]
            have : m ≠ n := by omega
            simp [this]
          simp only [this]
      rw [hcongr t (n + 1) (by omega)]
      simp only [List.length_cons]
      omega
    · rw [if_pos (by simpa using hn)]
      have := ih r (n + 1) hr (fun i hi => by
        have h2 := hlt i hi
        simp only [List.length_cons] at h2
        have : i ≠ n := by rintro rfl; exact hn hi
        omega)
      simp only [List.length_cons]
      omega

/-- Outcome of inlining. -/
theorem replace_spec {s : Indexed p V} (hi : s.Inv) (hw : s.sys.WF) (should : ShouldInline p V)
    (fuel : ℕ) :
    (∀ ix subs, replaceConstrainedWitnessColumns fuel s should = .ok (some (ix, subs)) →
      ix.Inv ∧ ix.sys.WF ∧
      (∀ (bus : Bus p) (σ : V → ZMod p), s.sys.Satisfied bus σ ↔
        ix.sys.Satisfied bus σ ∧ ∀ y ∈ subs, σ y.1 = eval σ y.2) ∧
      (∀ y ∈ subs, y.1 ∉ systemVars ix.sys) ∧
      (∀ y ∈ subs, y.1 ∉ vars y.2) ∧
      (subs.Pairwise fun a b => b.1 ≠ a.1 ∧ b.1 ∉ vars a.2) ∧
      (∀ v ∈ systemVars ix.sys, v ∈ systemVars s.sys) ∧
      (∀ y ∈ subs, y.1 ∈ systemVars s.sys ∧ ∀ v ∈ vars y.2, v ∈ systemVars s.sys) ∧
      ix.sys.algebraic.length + subs.length = s.sys.algebraic.length ∧
      ∀ bound, RespectsBound bound should → DegreeInv bound s.sys ix.sys) ∧
    ((∀ x e s, s.Inv → ∃ b, should x e s = .ok b) →
      ∃ o, replaceConstrainedWitnessColumns fuel s should = .ok o ∧
        ((systemVars s.sys).dedup.length < fuel → o ≠ none)) := by
  obtain ⟨h1, h2⟩ := inlineLoop_spec should fuel (inlineInv_init hi hw)
  rw [replaceConstrainedWitnessColumns]
  cases hs : inlineLoop should s.sys.algebraic.length fuel ⟨s, [], []⟩ with
  | error p =>
    refine ⟨fun _ _ h' => (by cases h'), fun htot => ?_⟩
    obtain ⟨b, hb, -⟩ := h2 htot
    rw [hs] at hb; cases hb
  | ok o =>
    rw [ok_bind]
    cases o with
    | none =>
      refine ⟨fun _ _ h' => (by cases h'), fun htot => ⟨none, rfl, ?_⟩⟩
      obtain ⟨b, hb, hb'⟩ := h2 htot
      rw [hs] at hb; cases hb
      simpa using hb'
    | some st =>
      obtain ⟨k1, k2⟩ := h1 st hs
      have hall : ((systemVars (st.ix.retainAlgebraic fun i _ => i ∉ st.toRemove).sys).all fun v =>
          !(st.subs.any fun y => y.1 = v)) = true := by
        rw [List.all_eq_true]
        intro v hv
        simp only [Bool.not_eq_eq_eq_not, Bool.not_true, List.any_eq_false, decide_eq_true_eq]
        rintro y hy rfl
        exact k1.gone y hy (systemVars_retain hv)
      simp only [hall, if_true]
      refine ⟨fun ix subs h' => ?_, fun _ => ⟨_, rfl, fun _ h => by cases h⟩⟩
      cases h'
      have hmem : ∀ e, e ∈ (st.ix.retainAlgebraic fun i _ => i ∉ st.toRemove).sys.algebraic →
          e ∈ st.ix.sys.algebraic := by
        intro e he
        obtain ⟨i, hi, -⟩ := mem_retainFrom.1 he
        exact List.mem_iff_getElem?.2 ⟨i, hi⟩
      refine ⟨Indexed.inv_retainAlgebraic k1.ix _, ⟨fun e he => k1.wf.1 e (hmem e he), k1.wf.2⟩,
        fun bus σ => ?_, fun y hy hv => k1.gone y hy (systemVars_retain hv), k1.self, k1.tri,
        fun v hv => k1.sysVars v (systemVars_retain hv), k1.subVars, ?_, fun b hb => ?_⟩
      · rw [k1.equiv]
        refine and_congr_left fun _ => ⟨fun h => ⟨fun e he => h.1 e (hmem e he), h.2⟩, fun h => ?_⟩
        refine ⟨fun e he => ?_, h.2⟩
        obtain ⟨i, hi⟩ := List.mem_iff_getElem?.1 he
        by_cases hr : i ∈ st.toRemove
        · exact k1.removed i hr e hi σ
        · exact h.1 e (mem_retainFrom.2 ⟨i, hi, by simpa using hr⟩)
      · have := length_retainFrom st.ix.sys.algebraic st.toRemove 0 k1.removedNodup (fun i hi => by
          have := k1.removedLt i hi
          have := k1.len
          omega)
        rw [k1.removedLen, k1.len] at this
        exact this
      · have hd := k2 b hb ⟨fun e he => Or.inr he, fun b hb => Or.inr hb⟩
        exact ⟨fun e he => hd.alg e (hmem e he), hd.bus⟩

theorem replace_sent {s : Indexed p V} (hi : s.Inv) (hw : s.sys.WF) {should : ShouldInline p V}
    {fuel : ℕ} {ix : Indexed p V} {subs : List (V × GExpr p V)}
    (h : replaceConstrainedWitnessColumns fuel s should = .ok (some (ix, subs))) {σ : V → ZMod p}
    (hσ : ∀ y ∈ subs, σ y.1 = eval σ y.2) :
    ix.sys.bus.map (BusInteraction.evalAt σ) = s.sys.bus.map (BusInteraction.evalAt σ) := by
  obtain ⟨h1, -⟩ := inlineLoop_spec should fuel (inlineInv_init hi hw)
  rw [replaceConstrainedWitnessColumns] at h
  cases hs : inlineLoop should s.sys.algebraic.length fuel ⟨s, [], []⟩ with
  | error p => rw [hs] at h; cases h
  | ok o =>
    rw [hs, ok_bind] at h
    cases o with
    | none => cases h
    | some st =>
      simp only at h
      split at h
      · cases h
        exact (h1 st hs).1.sent σ hσ
      · cases h

theorem replace_derived {s : Indexed p V} (hi : s.Inv) (hw : s.sys.WF) {should : ShouldInline p V}
    {fuel : ℕ} {ix : Indexed p V} {subs : List (V × GExpr p V)}
    (h : replaceConstrainedWitnessColumns fuel s should = .ok (some (ix, subs))) {σ : V → ZMod p}
    (hσ : ∀ y ∈ subs, σ y.1 = eval σ y.2) (hd : DerivedGood σ s.sys.derived) :
    DerivedGood σ ix.sys.derived := by
  obtain ⟨h1, -⟩ := inlineLoop_spec should fuel (inlineInv_init hi hw)
  rw [replaceConstrainedWitnessColumns] at h
  cases hs : inlineLoop should s.sys.algebraic.length fuel ⟨s, [], []⟩ with
  | error p => rw [hs] at h; cases h
  | ok o =>
    rw [hs, ok_bind] at h
    cases o with
    | none => cases h
    | some st =>
      simp only at h
      split at h
      · cases h
        exact (h1 st hs).1.derived σ hσ hd
      · cases h

theorem satisfied_congr {bus : Bus p} {s : ConstraintSystem p V} {σ τ : V → ZMod p}
    (h : ∀ v ∈ systemVars s, σ v = τ v) : s.Satisfied bus σ ↔ s.Satisfied bus τ := by
  have ha : ∀ e ∈ s.algebraic, eval σ e = eval τ e := fun e he =>
    eval_congr fun v hv => h v (mem_systemVars.2 (Or.inl ⟨e, he, hv⟩))
  have hb : ∀ b ∈ s.bus, b.evalAt σ = b.evalAt τ := fun b hb =>
    evalAt_congr fun v hv => h v (mem_systemVars.2 (Or.inr ⟨b, hb, List.mem_flatMap.1 hv⟩))
  constructor
  · rintro ⟨h1, h2⟩
    exact ⟨fun e he => by rw [← ha e he]; exact h1 e he, fun b h' => by rw [← hb b h']; exact h2 b h'⟩
  · rintro ⟨h1, h2⟩
    exact ⟨fun e he => by rw [ha e he]; exact h1 e he, fun b h' => by rw [hb b h']; exact h2 b h'⟩

/-- Definitions in triangular form can be satisfied by changing only the defined variables. -/
theorem extend_valuation (subs : List (V × GExpr p V)) (hself : ∀ y ∈ subs, y.1 ∉ vars y.2)
    (htri : subs.Pairwise fun a b => b.1 ≠ a.1 ∧ b.1 ∉ vars a.2) (τ : V → ZMod p) :
    ∃ σ : V → ZMod p, (∀ v, v ∉ subs.map (·.1) → σ v = τ v) ∧ ∀ y ∈ subs, σ y.1 = eval σ y.2 := by
  induction subs generalizing τ with
  | nil => exact ⟨τ, fun _ _ => rfl, by simp⟩
  | cons a t ih =>
    obtain ⟨x, r⟩ := a
    rw [List.pairwise_cons] at htri
    obtain ⟨σ, h1, h2⟩ := ih (fun y hy => hself y (List.mem_cons_of_mem _ hy)) htri.2
      (Function.update τ x (eval τ r))
    have hxt : x ∉ t.map (·.1) := by
      intro hx
      obtain ⟨y, hy, hyx⟩ := List.mem_map.1 hx
      exact (htri.1 y hy).1 hyx
    refine ⟨σ, fun v hv => ?_, ?_⟩
    · simp only [List.map_cons, List.mem_cons, not_or] at hv
      rw [h1 v hv.2, Function.update_of_ne hv.1]
    · intro y hy
      rcases List.mem_cons.1 hy with rfl | hy
      · simp only
        rw [h1 x hxt, Function.update_self]
        apply eval_congr
        intro v hv
        have hvx : v ≠ x := by
          rintro rfl
          exact hself (v, r) List.mem_cons_self hv
        rw [h1 v, Function.update_of_ne hvx]
        intro hvt
        obtain ⟨y, hy, rfl⟩ := List.mem_map.1 hvt
        exact (htri.1 y hy).2 hv
      · exact h2 y hy

end Verif
