import Verif.Proofs.GroupedExpression

/-! Structural facts about substitution: well-formedness, variables and degrees. -/

namespace Verif.GExpr

set_option linter.unusedSectionVars false

variable {p : ℕ} {V : Type} [LinearOrder V]

/-! ### The loops -/

theorem substKnownQ_spec {x : V} {s : ZMod p} {P : GExpr p V → Prop}
    (hadd : ∀ a b, P a → P b → P (add a b)) {q : List (GExpr p V × GExpr p V)}
    (hc : ∀ ab ∈ q, ∀ e, collapseTerm (substKnown x s ab.1) (substKnown x s ab.2) = some e → P e)
    {t : GExpr p V} (ht : P t) :
    P (substKnownQ x s q t).2 ∧ ∀ cd ∈ (substKnownQ x s q t).1,
      cd.1.tryToKnown = none ∧ cd.2.tryToKnown = none ∧
      ∃ ab ∈ q, cd = (substKnown x s ab.1, substKnown x s ab.2) := by
  induction q generalizing t with
  | nil => simpa [substKnownQ] using ht
  | cons ab tl ih =>
    obtain ⟨a, b⟩ := ab
    have ih' := fun {t : GExpr p V} (ht : P t) =>
      ih (fun ab hab => hc ab (List.mem_cons_of_mem _ hab)) ht
    rw [substKnownQ]
    simp only
    split
    · rename_i e he
      obtain ⟨h1, h2⟩ := ih' (hadd t e ht (hc (a, b) List.mem_cons_self e he))
      refine ⟨h1, fun cd hcd => ?_⟩
      obtain ⟨k1, k2, ab, hab, k3⟩ := h2 cd hcd
      exact ⟨k1, k2, ab, List.mem_cons_of_mem _ hab, k3⟩
    · rename_i hn
      obtain ⟨h1, h2⟩ := ih' ht
      refine ⟨h1, fun cd hcd => ?_⟩
      rcases List.mem_cons.1 hcd with rfl | hcd
      · exact ⟨(collapseTerm_none hn).1, (collapseTerm_none hn).2, (a, b), List.mem_cons_self, rfl⟩
      · obtain ⟨k1, k2, ab, hab, k3⟩ := h2 cd hcd
        exact ⟨k1, k2, ab, List.mem_cons_of_mem _ hab, k3⟩

theorem substQ_spec {x : V} {s : GExpr p V} {P : GExpr p V → Prop}
    (hadd : ∀ a b, P a → P b → P (add a b)) {q : List (GExpr p V × GExpr p V)}
    (hc : ∀ ab ∈ q, ∀ e, collapseTerm (subst x s ab.1) (subst x s ab.2) = some e → P e)
    {t : GExpr p V} (ht : P t) :
    P (substQ x s q t).2 ∧ ∀ cd ∈ (substQ x s q t).1,
      cd.1.tryToKnown = none ∧ cd.2.tryToKnown = none ∧
      ∃ ab ∈ q, cd = (subst x s ab.1, subst x s ab.2) := by
  induction q generalizing t with
  | nil => simpa [substQ] using ht
  | cons ab tl ih =>
    obtain ⟨a, b⟩ := ab
    have ih' := fun {t : GExpr p V} (ht : P t) =>
      ih (fun ab hab => hc ab (List.mem_cons_of_mem _ hab)) ht
    rw [substQ]
    simp only
    split
    · rename_i e he
      obtain ⟨h1, h2⟩ := ih' (hadd t e ht (hc (a, b) List.mem_cons_self e he))
      refine ⟨h1, fun cd hcd => ?_⟩
      obtain ⟨k1, k2, ab, hab, k3⟩ := h2 cd hcd
      exact ⟨k1, k2, ab, List.mem_cons_of_mem _ hab, k3⟩
    · rename_i hn
      obtain ⟨h1, h2⟩ := ih' ht
      refine ⟨h1, fun cd hcd => ?_⟩
      rcases List.mem_cons.1 hcd with rfl | hcd
      · exact ⟨(collapseTerm_none hn).1, (collapseTerm_none hn).2, (a, b), List.mem_cons_self, rfl⟩
      · obtain ⟨k1, k2, ab, hab, k3⟩ := h2 cd hcd
        exact ⟨k1, k2, ab, List.mem_cons_of_mem _ hab, k3⟩

theorem substSimpleQ_spec {x : V} {s : ZMod p} {P : GExpr p V → Prop}
    (hadd : ∀ a b, P a → P b → P (add a b)) {q : List (GExpr p V × GExpr p V)}
    (hc : ∀ ab ∈ q, ∀ e, collapseTerm (substSimple x s ab.1) (substSimple x s ab.2) = some e → P e)
    {c : ZMod p} {t : GExpr p V} (ht : P t) :
    P (substSimpleQ x s q c t).2.2 ∧ ∀ cd ∈ (substSimpleQ x s q c t).1,
      cd.1.tryToKnown = none ∧ cd.2.tryToKnown = none ∧
      ∃ ab ∈ q, cd = (substSimple x s ab.1, substSimple x s ab.2) := by
  induction q generalizing t c with
  | nil => simpa [substSimpleQ] using ht
  | cons ab tl ih =>
    obtain ⟨a, b⟩ := ab
    have ih' := fun {c : ZMod p} {t : GExpr p V} (ht : P t) =>
      ih (fun ab hab => hc ab (List.mem_cons_of_mem _ hab)) (c := c) ht
    have lift : ∀ {c : ZMod p} {t : GExpr p V}, P t → P (substSimpleQ x s tl c t).2.2 ∧
        ∀ cd ∈ (substSimpleQ x s tl c t).1,
        cd.1.tryToKnown = none ∧ cd.2.tryToKnown = none ∧
        ∃ ab ∈ (a, b) :: tl, cd = (substSimple x s ab.1, substSimple x s ab.2) := by
      intro c t ht
      obtain ⟨h1, h2⟩ := ih' (c := c) ht
      refine ⟨h1, fun cd hcd => ?_⟩
      obtain ⟨k1, k2, ab, hab, k3⟩ := h2 cd hcd
      exact ⟨k1, k2, ab, List.mem_cons_of_mem _ hab, k3⟩
    have hc0 := hc (a, b) List.mem_cons_self
    unfold collapseTerm at hc0
    rw [substSimpleQ]
    simp only at hc0 ⊢
    cases ha : (substSimple x s a).tryToKnown <;> cases hb : (substSimple x s b).tryToKnown <;>
      simp only [ha, hb] at hc0 ⊢
    · obtain ⟨h1, h2⟩ := lift (c := c) ht
      refine ⟨h1, fun cd hcd => ?_⟩
      rcases List.mem_cons.1 hcd with rfl | hcd
      · exact ⟨ha, hb, (a, b), List.mem_cons_self, rfl⟩
      · exact h2 cd hcd
    · split
      · exact lift (hadd _ _ ht (hc0 _ rfl))
      · exact lift ht
    · split
      · exact lift (hadd _ _ ht (hc0 _ rfl))
      · exact lift ht
    · exact lift ht

/-! ### Well-formedness -/

theorem wf_collapseTerm [Fact p.Prime] {a b e : GExpr p V} (ha : WF a) (hb : WF b)
    (h : collapseTerm a b = some e) : WF e := by
  unfold collapseTerm at h
  split at h
  · simp only [Option.some.injEq] at h; subst h; exact wf_const _
  · simp only [Option.some.injEq] at h; subst h; exact wf_scale _ hb
  · simp only [Option.some.injEq] at h; subst h; exact wf_scale _ ha
  · cases h

theorem pairwise_erase {x : V} {l : List (V × ZMod p)} (h : l.Pairwise fun e f => e.1 < f.1) :
    (Linear.erase x l).Pairwise fun e f => e.1 < f.1 := List.Pairwise.filter _ h

theorem moveToConstant_subset {x : V} {s : ZMod p} {l l0 : List (V × ZMod p)} {c : ZMod p}
    (h0 : l0 = l ∨ l0 = l.filter fun e => e.2 ≠ 0) {e : V × ZMod p}
    (he : e ∈ ((Linear.moveToConstant x s l c).getD (l0, c)).1) : e ∈ l ∧ e.1 ≠ x := by
  unfold Linear.moveToConstant at he
  cases hl : Linear.lookup x l with
  | none =>
    rw [hl] at he
    simp only [Option.map_none, Option.getD_none] at he
    have : e ∈ l := by
      rcases h0 with rfl | rfl
      · exact he
      · exact (List.mem_filter.1 he).1
    refine ⟨this, ?_⟩
    rintro rfl
    exact lookup_eq_none_iff.1 hl e.2 this
  | some k =>
    rw [hl] at he
    simp only [Option.map_some, Option.getD_some] at he
    exact mem_erase.1 he

theorem pairwise_moveToConstant {x : V} {s : ZMod p} {l l0 : List (V × ZMod p)} {c : ZMod p}
    (h0 : l0 = l ∨ l0 = l.filter fun e => e.2 ≠ 0) (h : l.Pairwise fun e f => e.1 < f.1) :
    ((Linear.moveToConstant x s l c).getD (l0, c)).1.Pairwise fun e f => e.1 < f.1 := by
  unfold Linear.moveToConstant
  cases hl : Linear.lookup x l with
  | none =>
    simp only [Option.map_none, Option.getD_none]
    rcases h0 with rfl | rfl
    · exact h
    · exact List.Pairwise.filter _ h
  | some k =>
    simp only [Option.map_some, Option.getD_some]
    exact pairwise_erase h

theorem wf_substSimple [Fact p.Prime] (x : V) (s : ZMod p) {e : GExpr p V} (h : WF e) :
    WF (substSimple x s e) := by
  induction e using ind with
  | h q l c ih =>
    obtain ⟨h1, h2, h3⟩ := wf_inv h
    rw [substSimple]
    have hw : ∀ ab ∈ q, WF (substSimple x s ab.1) ∧ WF (substSimple x s ab.2) := fun ab hab =>
      ⟨(ih ab hab).1 (h1 ab hab).1, (ih ab hab).2 (h1 ab hab).2.1⟩
    obtain ⟨k1, k2⟩ := substSimpleQ_spec (x := x) (s := s) (P := WF) (fun a b => wf_add) (q := q)
      (fun ab hab e he => wf_collapseTerm (hw ab hab).1 (hw ab hab).2 he)
      (c := ((Linear.moveToConstant x s l c).getD (l, c)).2) wf_zero
    have hm : WF (mk (substSimpleQ x s q ((Linear.moveToConstant x s l c).getD (l, c)).2 zero).1
        ((Linear.moveToConstant x s l c).getD (l, c)).1
        (substSimpleQ x s q ((Linear.moveToConstant x s l c).getD (l, c)).2 zero).2.1) := by
      refine wf_intro ?_ (pairwise_moveToConstant (Or.inl rfl) h2) ?_
      · intro cd hcd
        obtain ⟨m1, m2, ab, hab, rfl⟩ := k2 cd hcd
        exact ⟨(hw ab hab).1, (hw ab hab).2, m1, m2⟩
      · intro e he
        exact h3 e (moveToConstant_subset (Or.inl rfl) he).1
    split
    · exact hm
    · exact wf_add hm k1

theorem wf_substKnown [Fact p.Prime] (x : V) (s : ZMod p) {e : GExpr p V} (h : WF e) :
    WF (substKnown x s e) := by
  induction e using ind with
  | h q l c ih =>
    obtain ⟨h1, h2, h3⟩ := wf_inv h
    rw [substKnown]
    have hw : ∀ ab ∈ q, WF (substKnown x s ab.1) ∧ WF (substKnown x s ab.2) := fun ab hab =>
      ⟨(ih ab hab).1 (h1 ab hab).1, (ih ab hab).2 (h1 ab hab).2.1⟩
    obtain ⟨k1, k2⟩ := substKnownQ_spec (x := x) (s := s) (P := WF) (fun a b => wf_add) (q := q)
      (fun ab hab e he => wf_collapseTerm (hw ab hab).1 (hw ab hab).2 he) wf_zero
    have hm : WF (mk (removeQuadraticTermsAddingToZero (substKnownQ x s q zero).1)
        ((Linear.moveToConstant x s l c).getD (l.filter fun e => e.2 ≠ 0, c)).1
        ((Linear.moveToConstant x s l c).getD (l.filter fun e => e.2 ≠ 0, c)).2) := by
      refine wf_intro ?_ (pairwise_moveToConstant (Or.inr rfl) h2) ?_
      · intro cd hcd
        obtain ⟨m1, m2, ab, hab, rfl⟩ := k2 cd (removeQuadraticTermsAddingToZero_subset _ hcd)
        exact ⟨(hw ab hab).1, (hw ab hab).2, m1, m2⟩
      · intro e he
        exact h3 e (moveToConstant_subset (Or.inr rfl) he).1
    split
    · exact hm
    · exact wf_add hm k1

theorem wf_toAdd [Fact p.Prime] {x : V} {s : GExpr p V} (hs : WF s) (l : List (V × ZMod p))
    {acc : GExpr p V} (hacc : WF acc) :
    WF (l.foldl (fun acc e => if e.1 = x then add acc (scale e.2 s) else acc) acc) := by
  induction l generalizing acc with
  | nil => exact hacc
  | cons e t ih =>
    rw [List.foldl_cons]
    apply ih
    split
    · exact wf_add hacc (wf_scale _ hs)
    · exact hacc

theorem wf_subst [Fact p.Prime] (x : V) {s : GExpr p V} (hs : WF s) {e : GExpr p V} (h : WF e) :
    WF (subst x s e) := by
  induction e using ind with
  | h q l c ih =>
    obtain ⟨h1, h2, h3⟩ := wf_inv h
    rw [subst]
    have hw : ∀ ab ∈ q, WF (subst x s ab.1) ∧ WF (subst x s ab.2) := fun ab hab =>
      ⟨(ih ab hab).1 (h1 ab hab).1, (ih ab hab).2 (h1 ab hab).2.1⟩
    obtain ⟨k1, k2⟩ := substQ_spec (x := x) (s := s) (P := WF) (fun a b => wf_add) (q := q)
      (fun ab hab e he => wf_collapseTerm (hw ab hab).1 (hw ab hab).2 he)
      (wf_toAdd (x := x) hs l wf_zero)
    split
    · exact h
    · refine wf_add (wf_intro ?_ (List.Pairwise.filter _ h2) ?_) k1
      · intro cd hcd
        obtain ⟨m1, m2, ab, hab, rfl⟩ := k2 cd (removeQuadraticTermsAddingToZero_subset _ hcd)
        exact ⟨(hw ab hab).1, (hw ab hab).2, m1, m2⟩
      · intro e he
        exact h3 e (List.mem_filter.1 he).1

/-! ### Variables -/

theorem vars_collapseTerm {a b e : GExpr p V} (h : collapseTerm a b = some e) {v : V}
    (hv : v ∈ vars e) : v ∈ vars a ∨ v ∈ vars b := by
  unfold collapseTerm at h
  split at h
  · simp only [Option.some.injEq] at h; subst h; rw [vars_const] at hv; cases hv
  · simp only [Option.some.injEq] at h; subst h; exact Or.inr (vars_scale_subset _ _ hv)
  · simp only [Option.some.injEq] at h; subst h; exact Or.inl (vars_scale_subset _ _ hv)
  · cases h

theorem vars_add_closed (S : V → Prop) (a b : GExpr p V) (ha : ∀ v ∈ vars a, S v)
    (hb : ∀ v ∈ vars b, S v) : ∀ v ∈ vars (add a b), S v := by
  intro v hv
  rcases vars_add_subset a b hv with h | h
  · exact ha v h
  · exact hb v h

theorem vars_substSimple (x : V) (s : ZMod p) {e : GExpr p V} {v : V}
    (hv : v ∈ vars (substSimple x s e)) : v ∈ vars e ∧ v ≠ x := by
  revert v
  induction e using ind with
  | h q l c ih =>
    rw [substSimple]
    obtain ⟨k1, k2⟩ := substSimpleQ_spec (x := x) (s := s)
      (P := fun e => ∀ v ∈ vars e, v ∈ vars (mk q l c) ∧ v ≠ x)
      (vars_add_closed fun v => v ∈ vars (mk q l c) ∧ v ≠ x) (q := q)
      (fun ab hab e he v hv => by
        rw [mem_vars_mk]
        rcases vars_collapseTerm he hv with h | h
        · have := (ih ab hab).1 h
          exact ⟨Or.inl ⟨ab, hab, Or.inl this.1⟩, this.2⟩
        · have := (ih ab hab).2 h
          exact ⟨Or.inl ⟨ab, hab, Or.inr this.1⟩, this.2⟩)
      (c := ((Linear.moveToConstant x s l c).getD (l, c)).2) (t := zero)
      (by intro v hv; rw [vars_zero] at hv; cases hv)
    have hm : ∀ v ∈ vars (mk
        (substSimpleQ x s q ((Linear.moveToConstant x s l c).getD (l, c)).2 zero).1
        ((Linear.moveToConstant x s l c).getD (l, c)).1
        (substSimpleQ x s q ((Linear.moveToConstant x s l c).getD (l, c)).2 zero).2.1),
        v ∈ vars (mk q l c) ∧ v ≠ x := by
      intro v hv
      rw [mem_vars_mk] at hv ⊢
      rcases hv with ⟨cd, hcd, h⟩ | ⟨k, hk⟩
      · obtain ⟨-, -, ab, hab, rfl⟩ := k2 cd hcd
        rcases h with h | h
        · have := (ih ab hab).1 h
          exact ⟨Or.inl ⟨ab, hab, Or.inl this.1⟩, this.2⟩
        · have := (ih ab hab).2 h
          exact ⟨Or.inl ⟨ab, hab, Or.inr this.1⟩, this.2⟩
      · have := moveToConstant_subset (Or.inl rfl) hk
        exact ⟨Or.inr ⟨k, this.1⟩, this.2⟩
    intro v hv
    split at hv
    · exact hm v hv
    · rcases vars_add_subset _ _ hv with h | h
      · exact hm v h
      · exact k1 v h

theorem vars_substKnown (x : V) (s : ZMod p) {e : GExpr p V} {v : V}
    (hv : v ∈ vars (substKnown x s e)) : v ∈ vars e ∧ v ≠ x := by
  revert v
  induction e using ind with
  | h q l c ih =>
    rw [substKnown]
    obtain ⟨k1, k2⟩ := substKnownQ_spec (x := x) (s := s)
      (P := fun e => ∀ v ∈ vars e, v ∈ vars (mk q l c) ∧ v ≠ x)
      (vars_add_closed fun v => v ∈ vars (mk q l c) ∧ v ≠ x) (q := q)
      (fun ab hab e he v hv => by
        rw [mem_vars_mk]
        rcases vars_collapseTerm he hv with h | h
        · have := (ih ab hab).1 h
          exact ⟨Or.inl ⟨ab, hab, Or.inl this.1⟩, this.2⟩
        · have := (ih ab hab).2 h
          exact ⟨Or.inl ⟨ab, hab, Or.inr this.1⟩, this.2⟩)
      (t := zero)
      (by intro v hv; rw [vars_zero] at hv; cases hv)
    have hm : ∀ v ∈ vars (mk (removeQuadraticTermsAddingToZero (substKnownQ x s q zero).1)
        ((Linear.moveToConstant x s l c).getD (l.filter fun e => e.2 ≠ 0, c)).1
        ((Linear.moveToConstant x s l c).getD (l.filter fun e => e.2 ≠ 0, c)).2),
        v ∈ vars (mk q l c) ∧ v ≠ x := by
      intro v hv
      rw [mem_vars_mk] at hv ⊢
      rcases hv with ⟨cd, hcd, h⟩ | ⟨k, hk⟩
      · obtain ⟨-, -, ab, hab, rfl⟩ := k2 cd (removeQuadraticTermsAddingToZero_subset _ hcd)
        rcases h with h | h
        · have := (ih ab hab).1 h
          exact ⟨Or.inl ⟨ab, hab, Or.inl this.1⟩, this.2⟩
        · have := (ih ab hab).2 h
          exact ⟨Or.inl ⟨ab, hab, Or.inr this.1⟩, this.2⟩
      · have := moveToConstant_subset (Or.inr rfl) hk
        exact ⟨Or.inr ⟨k, this.1⟩, this.2⟩
    intro v hv
    split at hv
    · exact hm v hv
    · rcases vars_add_subset _ _ hv with h | h
      · exact hm v h
      · exact k1 v h

theorem vars_toAdd {x : V} {s : GExpr p V} (S : V → Prop) (l : List (V × ZMod p))
    (hs : x ∈ l.map (·.1) → ∀ v ∈ vars s, S v)
    {acc : GExpr p V} (hacc : ∀ v ∈ vars acc, S v) :
    ∀ v ∈ vars (l.foldl (fun acc e => if e.1 = x then add acc (scale e.2 s) else acc) acc), S v := by
  induction l generalizing acc with
  | nil => exact hacc
  | cons e t ih =>
    rw [List.foldl_cons]
    apply ih (fun h => hs (by simp only [List.map_cons, List.mem_cons]; exact Or.inr h))
    split
    · rename_i he
      exact vars_add_closed S _ _ hacc fun v hv => hs (by simp [he]) v (vars_scale_subset _ _ hv)
    · exact hacc

theorem vars_subst (x : V) (s : GExpr p V) {e : GExpr p V} {v : V}
    (hv : v ∈ vars (subst x s e)) : (v ∈ vars e ∧ v ≠ x) ∨ (v ∈ vars s ∧ x ∈ vars e) := by
  revert v
  induction e using ind with
  | h q l c ih =>
    rw [subst]
    let S : V → Prop := fun v => (v ∈ vars (mk q l c) ∧ v ≠ x) ∨ (v ∈ vars s ∧ x ∈ vars (mk q l c))
    have up1 : ∀ ab ∈ q, ∀ v ∈ vars (subst x s ab.1), S v := by
      intro ab hab v hv
      rcases (ih ab hab).1 hv with h | h
      · exact Or.inl ⟨mem_vars_mk.2 (Or.inl ⟨ab, hab, Or.inl h.1⟩), h.2⟩
      · exact Or.inr ⟨h.1, mem_vars_mk.2 (Or.inl ⟨ab, hab, Or.inl h.2⟩)⟩
    have up2 : ∀ ab ∈ q, ∀ v ∈ vars (subst x s ab.2), S v := by
      intro ab hab v hv
      rcases (ih ab hab).2 hv with h | h
      · exact Or.inl ⟨mem_vars_mk.2 (Or.inl ⟨ab, hab, Or.inr h.1⟩), h.2⟩
      · exact Or.inr ⟨h.1, mem_vars_mk.2 (Or.inl ⟨ab, hab, Or.inr h.2⟩)⟩
    obtain ⟨k1, k2⟩ := substQ_spec (x := x) (s := s)
      (P := fun e => ∀ v ∈ vars e, S v) (vars_add_closed S) (q := q)
      (fun ab hab e he v hv => by
        rcases vars_collapseTerm he hv with h | h
        · exact up1 ab hab v h
        · exact up2 ab hab v h)
      (t := l.foldl (fun acc e => if e.1 = x then add acc (scale e.2 s) else acc) zero)
      (vars_toAdd S l (fun hx v hv => by
        rw [List.mem_map] at hx
        obtain ⟨⟨y, k⟩, he, rfl⟩ := hx
        exact Or.inr ⟨hv, mem_vars_mk.2 (Or.inr ⟨k, he⟩)⟩)
        (by intro v hv; rw [vars_zero] at hv; cases hv))
    intro v hv
    split at hv
    · rename_i hx
      refine Or.inl ⟨hv, ?_⟩
      rintro rfl
      exact hx hv
    · simp only at hv
      rcases vars_add_subset _ _ hv with h | h
      · rw [mem_vars_mk] at h
        rcases h with ⟨cd, hcd, h⟩ | ⟨k, hk⟩
        · obtain ⟨-, -, ab, hab, rfl⟩ := k2 cd (removeQuadraticTermsAddingToZero_subset _ hcd)
          rcases h with h | h
          · exact up1 ab hab v h
          · exact up2 ab hab v h
        · have := List.mem_filter.1 hk
          exact Or.inl ⟨mem_vars_mk.2 (Or.inr ⟨k, this.1⟩), by simpa using this.2⟩
      · exact k1 v h

/-! ### Degree -/

theorem degreeQ_le_iff {q : List (GExpr p V × GExpr p V)} {d : ℕ} :
    degreeQ q ≤ d ↔ ∀ ab ∈ q, degree ab.1 + degree ab.2 ≤ d := by
  induction q with
  | nil => simp [degreeQ]
  | cons ab t ih =>
    obtain ⟨a, b⟩ := ab
    rw [degreeQ]
    simp only [List.mem_cons, forall_eq_or_imp, ← ih]
    exact Nat.max_le

theorem degree_le_iff {q : List (GExpr p V × GExpr p V)} {l : List (V × ZMod p)} {c : ZMod p}
    {d : ℕ} : degree (mk q l c) ≤ d ↔
      (∀ ab ∈ q, degree ab.1 + degree ab.2 ≤ d) ∧ (l ≠ [] → 1 ≤ d) := by
  rw [degree]
  have : Nat.max (degreeQ q) (if l.isEmpty = true then 0 else 1) ≤ d ↔
      degreeQ q ≤ d ∧ (if l.isEmpty = true then 0 else 1) ≤ d := Nat.max_le
  rw [this, degreeQ_le_iff]
  cases l <;> simp

theorem degree_zero : degree (zero : GExpr p V) = 0 := by simp [zero, degree, degreeQ]
theorem degree_const (c : ZMod p) : degree (const c : GExpr p V) = 0 := by
  simp [const, degree, degreeQ]

theorem degree_neg (e : GExpr p V) : degree (neg e) = degree e := by
  induction e using ind with
  | h q l c ih =>
    apply Nat.le_antisymm
    · rw [neg, negQ_eq, degree_le_iff]
      obtain ⟨h1, h2⟩ := degree_le_iff.1 (Nat.le_refl (degree (mk q l c)))
      refine ⟨?_, fun h => h2 (by simpa using h)⟩
      intro ab hab
      rw [List.mem_map] at hab
      obtain ⟨ab', hab', rfl⟩ := hab
      have := h1 ab' hab'
      simp only [(ih ab' hab').1]
      exact this
    · rw [degree_le_iff]
      obtain ⟨h1, h2⟩ := degree_le_iff.1 (Nat.le_refl
        (degree (mk (q.map fun ab => (neg ab.1, ab.2)) (l.map fun (v, k) => (v, -k)) (-c))))
      rw [neg, negQ_eq]
      refine ⟨?_, fun h => h2 (by simpa using h)⟩
      intro ab hab
      have := h1 (neg ab.1, ab.2) (List.mem_map.2 ⟨ab, hab, rfl⟩)
      simp only [(ih ab hab).1] at this
      exact this

theorem degree_scale_le (k : ZMod p) (e : GExpr p V) : degree (scale k e) ≤ degree e := by
  induction e using ind with
  | h q l c ih =>
    rw [scale, scaleQ_eq]
    split
    · rw [degree_zero]; omega
    · rw [degree_le_iff]
      obtain ⟨h1, h2⟩ := degree_le_iff.1 (Nat.le_refl (degree (mk q l c)))
      refine ⟨?_, fun h => h2 (by simpa using h)⟩
      intro ab hab
      rw [List.mem_map] at hab
      obtain ⟨ab', hab', rfl⟩ := hab
      have := h1 ab' hab'
      have := (ih ab' hab').1
      simp only
      omega

theorem degree_add_le (a b : GExpr p V) : degree (add a b) ≤ Nat.max (degree a) (degree b) := by
  rcases a with ⟨q, l, c⟩
  rcases b with ⟨q', l', c'⟩
  simp only [add, quadratic, linear, constant]
  obtain ⟨h1, h2⟩ := degree_le_iff.1 (Nat.le_refl (degree (mk q l c)))
  obtain ⟨h1', h2'⟩ := degree_le_iff.1 (Nat.le_refl (degree (mk q' l' c')))
  have hl := Nat.le_max_left (degree (mk q l c)) (degree (mk q' l' c'))
  have hr := Nat.le_max_right (degree (mk q l c)) (degree (mk q' l' c'))
  rw [degree_le_iff]
  constructor
  · intro ab hab
    rcases List.mem_append.1 (combineRemovingZeros_subset _ _ hab) with h | h
    · exact le_trans (h1 ab h) hl
    · exact le_trans (h1' ab h) hr
  · intro hne
    obtain ⟨e, he⟩ := List.exists_mem_of_ne_nil _ hne
    have he := (List.mem_filter.1 he).1
    rcases (mem_keys_foldl (y := e.1) l' l).1 (List.mem_map.2 ⟨_, he, rfl⟩) with h | h
    · exact le_trans (h2 (by rintro rfl; cases h)) hl
    · exact le_trans (h2' (by rintro rfl; cases h)) hr

theorem degree_add_closed (d : ℕ) (a b : GExpr p V) (ha : degree a ≤ d) (hb : degree b ≤ d) :
    degree (add a b) ≤ d := le_trans (degree_add_le a b) (Nat.max_le.2 ⟨ha, hb⟩)

theorem degree_mul_le (a b : GExpr p V) : degree (mul a b) ≤ degree a + degree b := by
  unfold mul
  split
  · exact le_trans (degree_scale_le _ _) (by omega)
  · split
    · exact le_trans (degree_scale_le _ _) (by omega)
    · rw [degree_le_iff]; simp

theorem degree_collapseTerm {a b e : GExpr p V} (h : collapseTerm a b = some e) :
    degree e ≤ degree a + degree b := by
  unfold collapseTerm at h
  split at h
  · simp only [Option.some.injEq] at h; subst h; rw [degree_const]; omega
  · simp only [Option.some.injEq] at h; subst h; exact le_trans (degree_scale_le _ _) (by omega)
  · simp only [Option.some.injEq] at h; subst h; exact le_trans (degree_scale_le _ _) (by omega)
  · cases h

theorem degree_substKnown_le (x : V) (s : ZMod p) (e : GExpr p V) :
    degree (substKnown x s e) ≤ degree e := by
  induction e using ind with
  | h q l c ih =>
    rw [substKnown]
    obtain ⟨h1, h2⟩ := degree_le_iff.1 (Nat.le_refl (degree (mk q l c)))
    obtain ⟨k1, k2⟩ := substKnownQ_spec (x := x) (s := s)
      (P := fun e => degree e ≤ degree (mk q l c)) (degree_add_closed _) (q := q)
      (fun ab hab e he => by
        have := degree_collapseTerm he
        have := h1 ab hab
        have := (ih ab hab).1
        have := (ih ab hab).2
        omega)
      (t := zero) (by rw [degree_zero]; omega)
    have hm : degree (mk (removeQuadraticTermsAddingToZero (substKnownQ x s q zero).1)
        ((Linear.moveToConstant x s l c).getD (l.filter fun e => e.2 ≠ 0, c)).1
        ((Linear.moveToConstant x s l c).getD (l.filter fun e => e.2 ≠ 0, c)).2)
        ≤ degree (mk q l c) := by
      rw [degree_le_iff]
      constructor
      · intro cd hcd
        obtain ⟨-, -, ab, hab, rfl⟩ := k2 cd (removeQuadraticTermsAddingToZero_subset _ hcd)
        have := h1 ab hab
        have := (ih ab hab).1
        have := (ih ab hab).2
        simp only
        omega
      · intro hne
        obtain ⟨e, he⟩ := List.exists_mem_of_ne_nil _ hne
        have := (moveToConstant_subset (Or.inr rfl) he).1
        exact h2 (by rintro rfl; cases this)
    split
    · exact hm
    · exact degree_add_closed _ _ _ hm k1

theorem degree_substSimple_le (x : V) (s : ZMod p) (e : GExpr p V) :
    degree (substSimple x s e) ≤ degree e := by
  induction e using ind with
  | h q l c ih =>
    rw [substSimple]
    obtain ⟨h1, h2⟩ := degree_le_iff.1 (Nat.le_refl (degree (mk q l c)))
    obtain ⟨k1, k2⟩ := substSimpleQ_spec (x := x) (s := s)
      (P := fun e => degree e ≤ degree (mk q l c)) (degree_add_closed _) (q := q)
      (fun ab hab e he => by
        have := degree_collapseTerm he
        have := h1 ab hab
        have := (ih ab hab).1
        have := (ih ab hab).2
        omega)
      (c := ((Linear.moveToConstant x s l c).getD (l, c)).2)
      (t := zero) (by rw [degree_zero]; omega)
    have hm : degree (mk
        (substSimpleQ x s q ((Linear.moveToConstant x s l c).getD (l, c)).2 zero).1
        ((Linear.moveToConstant x s l c).getD (l, c)).1
        (substSimpleQ x s q ((Linear.moveToConstant x s l c).getD (l, c)).2 zero).2.1)
        ≤ degree (mk q l c) := by
      rw [degree_le_iff]
      constructor
      · intro cd hcd
        obtain ⟨-, -, ab, hab, rfl⟩ := k2 cd hcd
        have := h1 ab hab
        have := (ih ab hab).1
        have := (ih ab hab).2
        simp only
        omega
      · intro hne
        obtain ⟨e, he⟩ := List.exists_mem_of_ne_nil _ hne
        have := (moveToConstant_subset (Or.inl rfl) he).1
        exact h2 (by rintro rfl; cases this)
    split
    · exact hm
    · exact degree_add_closed _ _ _ hm k1

theorem degree_toAdd {x : V} {s : GExpr p V} (d : ℕ) (l : List (V × ZMod p))
    (hs : l ≠ [] → degree s ≤ d) {acc : GExpr p V} (hacc : degree acc ≤ d) :
    degree (l.foldl (fun acc e => if e.1 = x then add acc (scale e.2 s) else acc) acc) ≤ d := by
  induction l generalizing acc with
  | nil => exact hacc
  | cons e t ih =>
    rw [List.foldl_cons]
    apply ih (fun h => hs (by simp))
    split
    · exact degree_add_closed _ _ _ hacc (le_trans (degree_scale_le _ _) (hs (by simp)))
    · exact hacc

theorem degree_subst_le (x : V) (s : GExpr p V) (e : GExpr p V) :
    degree (subst x s e) ≤ degree e * Nat.max 1 (degree s) := by
  have hm1 : 1 ≤ Nat.max 1 (degree s) := Nat.le_max_left _ _
  have hms : degree s ≤ Nat.max 1 (degree s) := Nat.le_max_right _ _
  generalize Nat.max 1 (degree s) = m at hm1 hms
  induction e using ind with
  | h q l c ih =>
    rw [subst]
    obtain ⟨h1, h2⟩ := degree_le_iff.1 (Nat.le_refl (degree (mk q l c)))
    generalize degree (mk q l c) = D at h1 h2 ⊢
    have hpair : ∀ ab ∈ q, degree (subst x s ab.1) + degree (subst x s ab.2) ≤ D * m := by
      intro ab hab
      have i1 := (ih ab hab).1
      have i2 := (ih ab hab).2
      have i3 := Nat.mul_le_mul_right m (h1 ab hab)
      rw [Nat.add_mul] at i3
      omega
    obtain ⟨k1, k2⟩ := substQ_spec (x := x) (s := s)
      (P := fun e => degree e ≤ D * m) (degree_add_closed _) (q := q)
      (fun ab hab e he => le_trans (degree_collapseTerm he) (hpair ab hab))
      (t := l.foldl (fun acc e => if e.1 = x then add acc (scale e.2 s) else acc) zero)
      (degree_toAdd _ l (fun h => le_trans hms (Nat.le_mul_of_pos_left m (h2 h)))
        (by rw [degree_zero]; omega))
    split
    · rw [degree_le_iff]
      have : D ≤ D * m := Nat.le_mul_of_pos_right D hm1
      exact ⟨fun ab hab => le_trans (h1 ab hab) this, fun h => le_trans (h2 h) this⟩
    · refine degree_add_closed _ _ _ ?_ k1
      rw [degree_le_iff]
      constructor
      · intro cd hcd
        obtain ⟨-, -, ab, hab, rfl⟩ := k2 cd (removeQuadraticTermsAddingToZero_subset _ hcd)
        exact hpair ab hab
      · intro hne
        obtain ⟨e, he⟩ := List.exists_mem_of_ne_nil _ hne
        have hl : l ≠ [] := by
          rintro rfl; simp at he
        exact le_trans (h2 hl) (Nat.le_mul_of_pos_right D hm1)

theorem degreeOfQ_eq_zero_iff {x : V} {q : List (GExpr p V × GExpr p V)} :
    degreeOfQ x q = 0 ↔ ∀ ab ∈ q, degreeOf x ab.1 = 0 ∧ degreeOf x ab.2 = 0 := by
  induction q with
  | nil => simp [degreeOfQ]
  | cons ab t ih =>
    obtain ⟨a, b⟩ := ab
    rw [degreeOfQ]
    simp only [List.mem_cons, forall_eq_or_imp, ← ih]
    have : Nat.max (degreeOf x a + degreeOf x b) (degreeOfQ x t) = 0 ↔
        (degreeOf x a + degreeOf x b = 0) ∧ degreeOfQ x t = 0 := Nat.max_eq_zero_iff
    rw [this]; omega

theorem degreeOf_eq_zero_iff {x : V} {e : GExpr p V} : degreeOf x e = 0 ↔ x ∉ vars e := by
  induction e using ind with
  | h q l c ih =>
    rw [degreeOf, mem_vars_mk]
    have : Nat.max (degreeOfQ x q) (if (Linear.lookup x l).isSome = true then 1 else 0) = 0 ↔
        degreeOfQ x q = 0 ∧ (if (Linear.lookup x l).isSome = true then 1 else 0) = 0 :=
      Nat.max_eq_zero_iff
    rw [this, degreeOfQ_eq_zero_iff, not_or]
    apply and_congr
    · constructor
      · rintro h ⟨ab, hab, hx | hx⟩
        · exact (ih ab hab).1.1 (h ab hab).1 hx
        · exact (ih ab hab).2.1 (h ab hab).2 hx
      · intro h ab hab
        exact ⟨(ih ab hab).1.2 fun hx => h ⟨ab, hab, Or.inl hx⟩,
          (ih ab hab).2.2 fun hx => h ⟨ab, hab, Or.inr hx⟩⟩
    · cases hl : Linear.lookup x l with
      | none => simpa using lookup_eq_none_iff.1 hl
      | some k => simpa using ⟨k, lookup_eq_some_mem hl⟩

/-! ### Range constraints -/

theorem evalL_id (σ : V → ZMod p) (l : List (V × ZMod p)) :
    evalL (RingHom.id _) σ l = (l.map fun e => e.2 * σ e.1).sum := rfl

theorem foldl_combineSum_allows [Fact p.Prime] {rs : List (RangeConstraint p)} {vs : List (ZMod p)}
    (h : List.Forall₂ RangeConstraint.Allows rs vs) {r : RangeConstraint p} {v : ZMod p}
    (hr : r.Allows v) : (rs.foldl RangeConstraint.combineSum r).Allows (v + vs.sum) := by
  induction h generalizing r v with
  | nil => simpa using hr
  | cons h1 h2 ih =>
    rw [List.foldl_cons, List.sum_cons, ← add_assoc]
    exact ih (RangeConstraint.combineSum_allows hr h1)

theorem rangeConstraint_allows [Fact p.Prime] {rc : V → RangeConstraint p} {σ : V → ZMod p}
    {e : GExpr p V} (h : ∀ v ∈ vars e, (rc v).Allows (σ v)) :
    (rangeConstraint rc e).Allows (eval σ e) := by
  induction e using ind with
  | h q l c ih =>
    rw [rangeConstraint]
    have hq : List.Forall₂ RangeConstraint.Allows (rangeConstraintQ rc q)
        (q.map fun ab => eval σ ab.1 * eval σ ab.2) := by
      have hq' : ∀ ab ∈ q, (rangeConstraint rc ab.1).Allows (eval σ ab.1) ∧
          (rangeConstraint rc ab.2).Allows (eval σ ab.2) := fun ab hab =>
        ⟨(ih ab hab).1 fun v hv => h v (mem_vars_mk.2 (Or.inl ⟨ab, hab, Or.inl hv⟩)),
         (ih ab hab).2 fun v hv => h v (mem_vars_mk.2 (Or.inl ⟨ab, hab, Or.inr hv⟩))⟩
      clear ih h
      induction q with
      | nil => simp [rangeConstraintQ]
      | cons ab t iht =>
        obtain ⟨a, b⟩ := ab
        rw [rangeConstraintQ, List.map_cons]
        refine List.Forall₂.cons ?_ (iht fun ab hab => hq' ab (List.mem_cons_of_mem _ hab))
        obtain ⟨h1, h2⟩ := hq' (a, b) List.mem_cons_self
        unfold rangeConstraintTerm
        split
        · rename_i hab
          subst hab
          exact RangeConstraint.square_allows h1
        · exact RangeConstraint.combineProduct_allows h1 h2
    have hl : List.Forall₂ RangeConstraint.Allows
        (l.map fun (v, k) => (rc v).combineProduct (RangeConstraint.fromValue k))
        (l.map fun e => e.2 * σ e.1) := by
      have hl' : ∀ e ∈ l, (rc e.1).Allows (σ e.1) := fun e he =>
        h e.1 (mem_vars_mk.2 (Or.inr ⟨e.2, he⟩))
      clear ih h hq
      induction l with
      | nil => simp
      | cons e t iht =>
        rw [List.map_cons, List.map_cons]
        refine List.Forall₂.cons ?_ (iht fun e he => hl' e (List.mem_cons_of_mem _ he))
        have := RangeConstraint.combineProduct_allows (hl' e List.mem_cons_self)
          ((RangeConstraint.fromValue_allows e.2 e.2).2 rfl)
        rwa [mul_comm] at this
    have hall := List.rel_append (List.rel_append hq hl)
      (List.Forall₂.cons ((RangeConstraint.fromValue_allows c c).2 rfl) List.Forall₂.nil)
    have hev : eval σ (mk q l c) = ((q.map fun ab => eval σ ab.1 * eval σ ab.2) ++
        (l.map fun e => e.2 * σ e.1) ++ [c]).sum := by
      unfold eval
      rw [evalIn_mk, evalInQ_eq, evalL_id]
      simp [List.sum_append, add_assoc]
    rw [hev]
    simp only at hall
    generalize (q.map fun ab => eval σ ab.1 * eval σ ab.2) ++ (l.map fun e => e.2 * σ e.1) ++ [c]
      = vs at hall ⊢
    generalize rangeConstraintQ rc q ++ (l.map fun (v, k) =>
      (rc v).combineProduct (RangeConstraint.fromValue k)) ++ [RangeConstraint.fromValue c]
      = rs at hall ⊢
    cases hall with
    | nil => simpa using (RangeConstraint.fromValue_allows (0 : ZMod p) 0).2 rfl
    | cons h1 h2 => rw [List.sum_cons]; exact foldl_combineSum_allows h2 h1

/-! ### Factors -/

theorem eval_scale' (σ : V → ZMod p) (k : ZMod p) (e : GExpr p V) :
    eval σ (scale k e) = k * eval σ e := by
  unfold eval; rw [evalIn_scale]; rfl

theorem toFactors_spec [Fact p.Prime] {e : GExpr p V} (h : WF e) :
    ∃ k : ZMod p, k ≠ 0 ∧ ∀ σ : V → ZMod p,
      eval σ e = k * ((toFactors e).map (eval σ)).prod := by
  have single : ∀ (d : ZMod p) (e' : GExpr p V), d ≠ 0 → ∃ k : ZMod p, k ≠ 0 ∧ ∀ σ : V → ZMod p,
      eval σ e' = k * (([scale d⁻¹ e']).map (eval σ)).prod := by
    intro d e' hd
    refine ⟨d, hd, fun σ => ?_⟩
    simp only [List.map_cons, List.map_nil, List.prod_cons, List.prod_nil, mul_one, eval_scale']
    rw [← mul_assoc, mul_inv_cancel₀ hd, one_mul]
  induction e using ind with
  | h q l c ih =>
    obtain ⟨h1, h2, h3⟩ := wf_inv h
    have gen : ∀ (q : List (GExpr p V × GExpr p V)) (l : List (V × ZMod p)),
        (∀ e ∈ l, e.2 ≠ 0) → ((if c ≠ 0 then c else match l with
          | (_, d) :: _ => d
          | [] => 1) : ZMod p) ≠ 0 := by
      intro q l hl
      split
      · assumption
      · split
        · exact hl _ List.mem_cons_self
        · exact one_ne_zero
    rcases q with _ | ⟨⟨a, b⟩, _ | ⟨x, q⟩⟩
    · rcases l with _ | ⟨⟨v, d⟩, _ | ⟨y, l⟩⟩
      · rw [toFactors]
        split
        · rename_i hc
          subst hc
          exact ⟨1, one_ne_zero, fun σ => by simp [zero]⟩
        · rename_i hc
          refine ⟨c, hc, fun σ => ?_⟩
          have := evalIn_const (RingHom.id _) σ c
          simpa [eval, const] using this
      · rw [toFactors]
        split
        · rename_i hc
          subst hc
          have hd := h3 (v, d) List.mem_cons_self
          refine ⟨d, hd, fun σ => ?_⟩
          simp only [List.map_cons, List.map_nil, List.prod_cons, List.prod_nil, mul_one]
          have e1 := evalIn_ofLinear (RingHom.id (ZMod p)) σ v d
          have e2 := evalIn_var (RingHom.id (ZMod p)) σ v
          unfold eval
          rw [e2]
          exact e1
        · rename_i hc
          exact single _ _ hc
      · rw [toFactors]
        · exact single _ _ (gen [] _ h3)
        all_goals simp
    · rcases l with _ | ⟨⟨v, d⟩, l⟩
      · rw [toFactors]
        split
        · rename_i hc
          obtain ⟨w1, w2, -, -⟩ := h1 (a, b) List.mem_cons_self
          obtain ⟨k1, hk1, e1⟩ := (ih (a, b) List.mem_cons_self).1 w1
          obtain ⟨k2, hk2, e2⟩ := (ih (a, b) List.mem_cons_self).2 w2
          refine ⟨k1 * k2, mul_ne_zero hk1 hk2, fun σ => ?_⟩
          have : eval σ (mk [(a, b)] [] c) = eval σ a * eval σ b := by
            subst hc; exact evalIn_ofQuadratic _ _ a b
          rw [this, List.map_append, List.prod_append]
          have e1 := e1 σ
          have e2 := e2 σ
          simp only at e1 e2
          rw [e1, e2]; ring
        · rename_i hc
          exact single _ _ hc
      · rw [toFactors]
        · exact single _ _ (gen [] _ h3)
        all_goals simp
    · rcases l with _ | ⟨⟨v, d⟩, l⟩
      · rw [toFactors]
        · exact single _ _ (gen [] _ h3)
        all_goals simp
      · rw [toFactors]
        · exact single _ _ (gen [] _ h3)
        all_goals simp

end Verif.GExpr

/-! ### `eval` versions -/

namespace Verif.GExpr

set_option linter.unusedSectionVars false

variable {p : ℕ} {V : Type} [LinearOrder V] (σ : V → ZMod p)

theorem eval_mk (q : List (GExpr p V × GExpr p V)) (l : List (V × ZMod p)) (c : ZMod p) :
    eval σ (mk q l c) = (q.map fun ab => eval σ ab.1 * eval σ ab.2).sum +
      (l.map fun e => e.2 * σ e.1).sum + c := by
  unfold eval; rw [evalIn_mk, evalInQ_eq, evalL_id]; rfl
theorem eval_const (c : ZMod p) : eval σ (const c) = c := evalIn_const _ σ c
theorem eval_zero : eval σ zero = 0 := evalIn_zero _ σ
theorem eval_one : eval σ one = 1 := evalIn_one _ σ
theorem eval_var (v : V) : eval σ (var v) = σ v := evalIn_var _ σ v
theorem eval_ofLinear (v : V) (c : ZMod p) : eval σ (ofLinear v c) = c * σ v :=
  evalIn_ofLinear _ σ v c
theorem eval_ofQuadratic (a b : GExpr p V) : eval σ (ofQuadratic a b) = eval σ a * eval σ b :=
  evalIn_ofQuadratic _ σ a b
theorem eval_neg (e : GExpr p V) : eval σ (neg e) = - eval σ e := evalIn_neg _ σ e
theorem eval_scale (k : ZMod p) (e : GExpr p V) : eval σ (scale k e) = k * eval σ e :=
  evalIn_scale _ σ k e
theorem eval_add (a b : GExpr p V) : eval σ (add a b) = eval σ a + eval σ b := evalIn_add _ σ a b
theorem eval_sub (a b : GExpr p V) : eval σ (sub a b) = eval σ a - eval σ b := evalIn_sub _ σ a b
theorem eval_mul (a b : GExpr p V) : eval σ (mul a b) = eval σ a * eval σ b := evalIn_mul _ σ a b
theorem eval_sum (l : List (GExpr p V)) : eval σ (sum l) = (l.map (eval σ)).sum := evalIn_sum _ σ l
theorem eval_known {e : GExpr p V} {k : ZMod p} (h : e.tryToKnown = some k) : eval σ e = k :=
  evalIn_of_tryToKnown _ σ h
theorem eval_subst (x : V) (s e : GExpr p V) :
    eval σ (subst x s e) = eval (Function.update σ x (eval σ s)) e := evalIn_subst _ σ x s e
theorem eval_substKnown (x : V) (s : ZMod p) {e : GExpr p V} (h : WF e) :
    eval σ (substKnown x s e) = eval (Function.update σ x s) e := evalIn_substKnown _ σ x s h
theorem eval_substSimple (x : V) (s : ZMod p) {e : GExpr p V} (h : WF e) :
    eval σ (substSimple x s e) = eval (Function.update σ x s) e := evalIn_substSimple _ σ x s h
theorem eval_congr {σ τ : V → ZMod p} {e : GExpr p V} (h : ∀ v ∈ vars e, σ v = τ v) :
    eval σ e = eval τ e := evalIn_congr _ h

@[simp] theorem eval_add' (a b : GExpr p V) : eval σ (a + b) = eval σ a + eval σ b :=
  eval_add σ a b
@[simp] theorem eval_sub' (a b : GExpr p V) : eval σ (a - b) = eval σ a - eval σ b :=
  eval_sub σ a b
@[simp] theorem eval_mul' (a b : GExpr p V) : eval σ (a * b) = eval σ a * eval σ b :=
  eval_mul σ a b
@[simp] theorem eval_neg' (a : GExpr p V) : eval σ (-a) = - eval σ a := eval_neg σ a

theorem eval_split {e h t : GExpr p V} (hs : e.trySplitHeadTail = some (h, t)) :
    eval σ e = eval σ h + eval σ t := by
  rcases e with ⟨_ | ⟨⟨a, b⟩, q⟩, l, c⟩
  · rcases l with _ | ⟨⟨v, d⟩, l⟩
    · simp [trySplitHeadTail] at hs
    · simp only [trySplitHeadTail, Option.some.injEq, Prod.mk.injEq] at hs
      obtain ⟨rfl, rfl⟩ := hs
      rw [eval_ofLinear, eval_mk, eval_mk]; simp; ring
  · simp only [trySplitHeadTail, Option.some.injEq, Prod.mk.injEq] at hs
    obtain ⟨rfl, rfl⟩ := hs
    rw [eval_mul, eval_mk, eval_mk]; simp; ring

theorem wf_split [Fact p.Prime] {e h t : GExpr p V} (hw : WF e)
    (hs : e.trySplitHeadTail = some (h, t)) : WF h ∧ WF t := by
  rcases e with ⟨_ | ⟨⟨a, b⟩, q⟩, l, c⟩
  · rcases l with _ | ⟨⟨v, d⟩, l⟩
    · simp [trySplitHeadTail] at hs
    · simp only [trySplitHeadTail, Option.some.injEq, Prod.mk.injEq] at hs
      obtain ⟨rfl, rfl⟩ := hs
      obtain ⟨h1, h2, h3⟩ := wf_inv hw
      exact ⟨wf_ofLinear _ (h3 _ List.mem_cons_self),
        wf_intro (by simp) (List.Pairwise.of_cons h2) fun e he => h3 e (List.mem_cons_of_mem _ he)⟩
  · simp only [trySplitHeadTail, Option.some.injEq, Prod.mk.injEq] at hs
    obtain ⟨rfl, rfl⟩ := hs
    obtain ⟨h1, h2, h3⟩ := wf_inv hw
    obtain ⟨w1, w2, -, -⟩ := h1 (a, b) List.mem_cons_self
    exact ⟨wf_mul w1 w2, wf_intro (fun ab hab => h1 ab (List.mem_cons_of_mem _ hab)) h2 h3⟩

theorem eval_extract {e r : GExpr p V} {x : V} {k : ZMod p} (hw : WF e)
    (h : e.tryExtractAffineVar x = some (k, r)) :
    eval σ e = k * σ x + eval σ r := by
  unfold tryExtractAffineVar at h
  split at h
  · cases h
  · rw [Option.map_eq_some_iff] at h
    obtain ⟨k', hk, he⟩ := h
    simp only [Prod.mk.injEq] at he
    obtain ⟨rfl, rfl⟩ := he
    rcases e with ⟨q, l, c⟩
    obtain ⟨h1, h2, h3⟩ := wf_inv hw
    simp only [quadratic, linear, constant] at hk ⊢
    have := evalL_erase (RingHom.id (ZMod p)) σ h2 hk
    unfold eval
    rw [evalIn_mk, evalIn_mk, ← this]
    simp only [RingHom.id_apply]; ring

theorem vars_extract {e r : GExpr p V} {x : V} {k : ZMod p} (hw : WF e)
    (h : e.tryExtractAffineVar x = some (k, r)) :
    x ∉ vars r ∧ (∀ v ∈ vars r, v ∈ vars e) := by
  unfold tryExtractAffineVar at h
  split at h
  · cases h
  · rename_i hlen
    rw [Option.map_eq_some_iff] at h
    obtain ⟨k', hk, he⟩ := h
    simp only [Prod.mk.injEq] at he
    obtain ⟨rfl, rfl⟩ := he
    rcases e with ⟨q, l, c⟩
    obtain ⟨h1, h2, h3⟩ := wf_inv hw
    simp only [quadratic, linear, constant] at hk hlen ⊢
    have hmem := lookup_eq_some_mem hk
    constructor
    · intro hx
      rw [mem_vars_mk] at hx
      rcases hx with ⟨ab, hab, h⟩ | ⟨d, hd⟩
      · have hq : x ∈ varsQ q := mem_varsQ.2 ⟨ab, hab, h⟩
        apply hlen
        intro hl
        rw [vars, List.filter_append, List.length_append] at hl
        have l1 : 0 < ((varsQ q).filter (· = x)).length :=
          List.length_pos_iff_exists_mem.2 ⟨x, List.mem_filter.2 ⟨hq, by simp⟩⟩
        have l2 : 0 < ((l.map (·.1)).filter (· = x)).length :=
          List.length_pos_iff_exists_mem.2
            ⟨x, List.mem_filter.2 ⟨List.mem_map.2 ⟨_, hmem, rfl⟩, by simp⟩⟩
        omega
      · exact (mem_erase.1 hd).2 rfl
    · intro v hv
      rw [mem_vars_mk] at hv ⊢
      rcases hv with h | ⟨d, hd⟩
      · exact Or.inl h
      · exact Or.inr ⟨d, (mem_erase.1 hd).1⟩

theorem wf_extract {e r : GExpr p V} {x : V} {k : ZMod p} (hw : WF e)
    (h : e.tryExtractAffineVar x = some (k, r)) : WF r ∧ k ≠ 0 := by
  unfold tryExtractAffineVar at h
  split at h
  · cases h
  · rw [Option.map_eq_some_iff] at h
    obtain ⟨k', hk, he⟩ := h
    simp only [Prod.mk.injEq] at he
    obtain ⟨rfl, rfl⟩ := he
    rcases e with ⟨q, l, c⟩
    obtain ⟨h1, h2, h3⟩ := wf_inv hw
    simp only [quadratic, linear, constant] at hk ⊢
    exact ⟨wf_intro h1 (pairwise_erase h2) fun e he => h3 e (mem_erase.1 he).1,
      h3 _ (lookup_eq_some_mem hk)⟩

theorem wf_toFactors [Fact p.Prime] {e f : GExpr p V} (hw : WF e) (hf : f ∈ toFactors e) :
    WF f := by
  revert f
  have one1 : ∀ (d : ZMod p) (e' : GExpr p V), WF e' → ∀ {f}, f ∈ [scale d e'] → WF f := by
    intro d e' h f hf
    simp only [List.mem_singleton] at hf
    subst hf
    exact wf_scale _ h
  induction e using ind with
  | h q l c ih =>
    obtain ⟨h1, h2, h3⟩ := wf_inv hw
    rcases q with _ | ⟨⟨a, b⟩, _ | ⟨x, q⟩⟩
    · rcases l with _ | ⟨⟨v, d⟩, _ | ⟨y, l⟩⟩
      · rw [toFactors]
        split
        · intro f hf; simp only [List.mem_singleton] at hf; subst hf; exact wf_zero
        · intro f hf; cases hf
      · rw [toFactors]
        split
        · intro f hf; simp only [List.mem_singleton] at hf; subst hf; exact wf_var v
        · exact fun {f} hf => one1 _ _ hw hf
      · rw [toFactors]
        · exact fun {f} hf => one1 _ _ hw hf
        all_goals simp
    · rcases l with _ | ⟨⟨v, d⟩, l⟩
      · rw [toFactors]
        split
        · intro f hf
          obtain ⟨w1, w2, -, -⟩ := h1 (a, b) List.mem_cons_self
          rcases List.mem_append.1 hf with hf | hf
          · exact (ih (a, b) List.mem_cons_self).1 w1 hf
          · exact (ih (a, b) List.mem_cons_self).2 w2 hf
        · exact fun {f} hf => one1 _ _ hw hf
      · rw [toFactors]
        · exact fun {f} hf => one1 _ _ hw hf
        all_goals simp
    · rcases l with _ | ⟨⟨v, d⟩, l⟩
      · rw [toFactors]
        · exact fun {f} hf => one1 _ _ hw hf
        all_goals simp
      · rw [toFactors]
        · exact fun {f} hf => one1 _ _ hw hf
        all_goals simp

/-- A well-formed affine expression that is not a known constant takes different values. -/
theorem affine_not_constant [Fact p.Prime] {e : GExpr p V} (hw : WF e) (ha : e.isAffine = true)
    (hn : e.tryToKnown = none) (c : ZMod p) : ∃ σ : V → ZMod p, eval σ e ≠ c := by
  rcases e with ⟨q, l, d⟩
  obtain ⟨h1, h2, h3⟩ := wf_inv hw
  have hq : q = [] := by
    cases q with
    | nil => rfl
    | cons a t => simp [isAffine, isQuadratic, quadratic] at ha
  subst hq
  rcases l with _ | ⟨⟨v, k⟩, l⟩
  · simp [tryToKnown] at hn
  · have hk := h3 (v, k) List.mem_cons_self
    by_contra hall
    push Not at hall
    have e0 := hall (fun _ => 0)
    have e1 := hall (fun w => if w = v then 1 else 0)
    rw [eval_mk] at e0 e1
    rw [List.pairwise_cons] at h2
    have z : (l.map fun e => e.2 * (if e.1 = v then (1 : ZMod p) else 0)).sum = 0 := by
      apply List.sum_eq_zero
      intro x hx
      rw [List.mem_map] at hx
      obtain ⟨e, he, rfl⟩ := hx
      rw [if_neg (ne_of_gt (h2.1 e he)), mul_zero]
    simp only [List.map_nil, List.sum_nil, List.map_cons, List.sum_cons, if_true, mul_one, z,
      mul_zero, zero_add, add_zero] at e0 e1
    have z0 : (l.map fun _ => (0 : ZMod p)).sum = 0 := by
      apply List.sum_eq_zero; intro x hx; rw [List.mem_map] at hx; obtain ⟨_, _, rfl⟩ := hx; rfl
    rw [z0, zero_add] at e0
    exact hk (by linear_combination e1 - e0)

end Verif.GExpr
