import Verif.Proofs.Splitter
import Verif.Proofs.Linearizer

/-! Helper lemmas for the termination of the solver: splitting a constraint gives constraints with
fewer variables. -/

set_option linter.unusedSectionVars false

namespace Verif

open GExpr

variable {p : ℕ} {V : Type} [LinearOrder V] [Fact p.Prime]

namespace Splitter

/-- No common variables. -/
def Apart (c d : Component p V) : Prop := ∀ v ∈ vars c.expr, v ∉ vars d.expr

/-- A sum of variables with coefficients, without constant. -/
def Homogeneous (c : Component p V) : Prop := c.expr.isAffine = true ∧ c.expr.constant = 0

theorem affine_neg {e : GExpr p V} (h : e.isAffine = true) : (neg e).isAffine = true := by
  obtain ⟨q, l, c⟩ := e
  rw [isAffine_iff] at *
  have h' : q = [] := h
  subst h'
  rw [neg]
  rfl

theorem affine_sub {a b : GExpr p V} (ha : a.isAffine = true) (hb : b.isAffine = true) :
    (sub a b).isAffine = true := affine_add ha (affine_neg hb)

theorem vars_normalize (c : Component p V) : vars c.normalize.expr = vars c.expr := by
  unfold Component.normalize
  split
  · rfl
  · rw [vars_neg]

theorem homogeneous_normalize {c : Component p V} (h : Homogeneous c) :
    Homogeneous c.normalize := by
  unfold Component.normalize
  split
  · exact h
  · refine ⟨affine_neg h.1, ?_⟩
    obtain ⟨k, q, l, d⟩ := c
    have h' : d = 0 := h.2
    simp [neg, constant, h']

theorem Apart.symm {c d : Component p V} (h : Apart c d) : Apart d c :=
  fun v hv hv' => h v hv' hv

theorem insertComponent_apart {c : Component p V} {cs : List (Component p V)}
    (hcs : cs.Pairwise Apart) (hc : ∀ d ∈ cs, Apart c d) (hh : Homogeneous c)
    (hhs : ∀ d ∈ cs, Homogeneous d) :
    (insertComponent c cs).Pairwise Apart ∧ (∀ d ∈ insertComponent c cs, Homogeneous d) ∧
      ∀ d ∈ insertComponent c cs, ∀ v ∈ vars d.expr,
        v ∈ vars c.expr ∨ ∃ d' ∈ cs, v ∈ vars d'.expr := by
  induction cs with
  | nil =>
    simp only [insertComponent, List.mem_singleton, forall_eq]
    exact ⟨List.pairwise_singleton _ _, hh, fun v hv => Or.inl hv⟩
  | cons d t ih =>
    rw [List.pairwise_cons] at hcs
    unfold insertComponent
    split
    · refine ⟨?_, ?_, ?_⟩
      · rw [List.pairwise_cons]
        refine ⟨?_, hcs.2⟩
        intro a ha v hv
        rcases vars_add_subset _ _ hv with hv | hv
        · exact hcs.1 a ha v hv
        · exact hc a (by simp [ha]) v hv
      · intro a ha
        rcases List.mem_cons.1 ha with rfl | ha
        · have h1 := hhs d (by simp)
          refine ⟨affine_add h1.1 hh.1, ?_⟩
          show d.expr.constant + c.expr.constant = 0
          rw [h1.2, hh.2, add_zero]
        · exact hhs a (by simp [ha])
      · intro a ha v hv
        rcases List.mem_cons.1 ha with rfl | ha
        · rcases vars_add_subset _ _ hv with hv | hv
          · exact Or.inr ⟨d, by simp, hv⟩
          · exact Or.inl hv
        · exact Or.inr ⟨a, by simp [ha], hv⟩
    · split
      · refine ⟨?_, ?_, ?_⟩
        · rw [List.pairwise_cons]
          exact ⟨hc, List.pairwise_cons.2 hcs⟩
        · intro a ha
          rcases List.mem_cons.1 ha with rfl | ha
          · exact hh
          · exact hhs a ha
        · intro a ha v hv
          rcases List.mem_cons.1 ha with rfl | ha
          · exact Or.inl hv
          · exact Or.inr ⟨a, ha, hv⟩
      · obtain ⟨h1, h2, h3⟩ := ih hcs.2 (fun a ha => hc a (by simp [ha]))
          (fun a ha => hhs a (by simp [ha]))
        refine ⟨?_, ?_, ?_⟩
        · rw [List.pairwise_cons]
          refine ⟨?_, h1⟩
          intro a ha v hv hv'
          rcases h3 a ha v hv' with h4 | ⟨d', hd', h4⟩
          · exact hc d (by simp) v h4 hv
          · exact hcs.1 d' hd' v hv h4
        · intro a ha
          rcases List.mem_cons.1 ha with rfl | ha
          · exact hhs a (by simp)
          · exact h2 a ha
        · intro a ha v hv
          rcases List.mem_cons.1 ha with rfl | ha
          · exact Or.inr ⟨a, by simp, hv⟩
          · rcases h3 a ha v hv with h4 | ⟨d', hd', h4⟩
            · exact Or.inl h4
            · exact Or.inr ⟨d', by simp [hd'], h4⟩

theorem foldl_insert_apart (l acc : List (Component p V)) (hl : l.Pairwise Apart)
    (hlh : ∀ c ∈ l, Homogeneous c) (ha : acc.Pairwise Apart) (hah : ∀ c ∈ acc, Homogeneous c)
    (hla : ∀ c ∈ l, ∀ d ∈ acc, Apart c d) :
    (l.foldl (fun m c => insertComponent c m) acc).Pairwise Apart ∧
      (∀ c ∈ l.foldl (fun m c => insertComponent c m) acc, Homogeneous c) ∧
      ∀ d ∈ l.foldl (fun m c => insertComponent c m) acc, ∀ v ∈ vars d.expr,
        ∃ d', (d' ∈ l ∨ d' ∈ acc) ∧ v ∈ vars d'.expr := by
  induction l generalizing acc with
  | nil => exact ⟨ha, hah, fun d hd v hv => ⟨d, Or.inr hd, hv⟩⟩
  | cons c t ih =>
    rw [List.pairwise_cons] at hl
    obtain ⟨h1, h2, h3⟩ := insertComponent_apart ha (hla c (by simp)) (hlh c (by simp)) hah
    rw [List.foldl_cons]
    obtain ⟨h4, h5, h6⟩ := ih (insertComponent c acc) hl.2 (fun a h => hlh a (by simp [h])) h1 h2
      (by
        intro a hat d hd v hv hv'
        rcases h3 d hd v hv' with h7 | ⟨d', hd', h7⟩
        · exact hl.1 a hat v h7 hv
        · exact hla a (by simp [hat]) d' hd' v hv h7)
    refine ⟨h4, h5, ?_⟩
    intro d hd v hv
    obtain ⟨d', hd', h7⟩ := h6 d hd v hv
    rcases hd' with hd' | hd'
    · exact ⟨d', Or.inl (by simp [hd']), h7⟩
    · rcases h3 d' hd' v h7 with h8 | ⟨d'', hd'', h8⟩
      · exact ⟨c, Or.inl (by simp), h8⟩
      · exact ⟨d'', Or.inr hd'', h8⟩

/-- The components have no common variables, and each of them has a variable. -/
theorem groupComponents_apart {l : List (V × ZMod p)}
    (hl : l.Pairwise fun a b => a.1 < b.1) :
    (groupComponents (l.map fun x => (⟨x.2, var x.1⟩ : Component p V))).Pairwise Apart ∧
      ∀ c ∈ groupComponents (l.map fun x => (⟨x.2, var x.1⟩ : Component p V)),
        Homogeneous c ∧ vars c.expr ≠ [] ∧ ∀ v ∈ vars c.expr, v ∈ l.map (·.1) := by
  unfold groupComponents
  have hv : ∀ c ∈ (l.map fun x => (⟨x.2, var x.1⟩ : Component p V)).map Component.normalize,
      ∀ v ∈ vars c.expr, v ∈ l.map (·.1) := by
    intro c hc v hv
    simp only [List.map_map, List.mem_map, Function.comp_apply] at hc
    obtain ⟨x, hx, rfl⟩ := hc
    rw [vars_normalize, vars_var, List.mem_singleton] at hv
    rw [hv]
    exact List.mem_map.2 ⟨x, hx, rfl⟩
  obtain ⟨h1, h2, h3⟩ := foldl_insert_apart
    ((l.map fun x => (⟨x.2, var x.1⟩ : Component p V)).map Component.normalize) [] (by
      rw [List.map_map, List.pairwise_map]
      refine hl.imp ?_
      intro a b hab v hv hv'
      simp only [Function.comp_apply, vars_normalize, vars_var, List.mem_singleton] at hv hv'
      rw [hv] at hv'
      exact absurd hv' (ne_of_lt hab)) (by
      intro c hc
      simp only [List.map_map, List.mem_map, Function.comp_apply] at hc
      obtain ⟨x, hx, rfl⟩ := hc
      exact homogeneous_normalize ⟨affine_var _, rfl⟩) List.Pairwise.nil (by simp) (by simp)
  refine ⟨h1.filter _, ?_⟩
  intro c hc
  rw [List.mem_filter] at hc
  refine ⟨h2 c hc.1, ?_, ?_⟩
  · intro h0
    have hz : c.expr = mk [] [] 0 := by
      obtain ⟨k, q, ll, d⟩ := c
      obtain ⟨h4, h5⟩ := h2 _ hc.1
      have hq : q = [] := isAffine_iff.1 h4
      have hd : d = 0 := h5
      subst hq; subst hd
      simp only [vars, varsQ, List.nil_append, List.map_eq_nil_iff] at h0
      rw [h0]
    have : c.isZero = true := by
      unfold Component.isZero
      rw [isZero_spec.2 hz]
      simp
    rw [this] at hc
    exact absurd hc.2 (by simp)
  · intro v hv'
    obtain ⟨d', hd', h4⟩ := h3 c hc.1 v hv'
    rcases hd' with hd' | hd'
    · exact hv d' hd' v h4
    · cases hd'

/-- What the loop does with the components. -/
theorem splitLoop_apart {rc : V → RangeConstraint p} {fuel : ℕ}
    {done todo cs : List (Component p V)} {k k' : ZMod p} {parts parts' : List (GExpr p V)}
    (hp : (done ++ todo).Pairwise Apart)
    (h : splitLoop rc fuel done todo k parts = .ok (cs, k', parts')) :
    (∀ c ∈ cs, c ∈ done ++ todo ∨ c = Component.zero) ∧
      (∀ e ∈ parts', e ∈ parts ∨ ∃ c ∈ todo, ∃ s, e = c.expr - const s) ∧
      (parts' = parts ∨ ∃ c ∈ todo, ∀ v ∈ vars c.expr, ∀ d ∈ cs, v ∉ vars d.expr) := by
  induction todo generalizing done k parts with
  | nil =>
    rw [splitLoop] at h
    simp only [Except.ok.injEq, Prod.mk.injEq] at h
    obtain ⟨rfl, rfl, rfl⟩ := h
    exact ⟨fun c hc => Or.inl (by simpa using hc), fun e he => Or.inl he, Or.inl rfl⟩
  | cons cand t ih =>
    rw [splitLoop] at h
    simp only [bind, Except.bind, pure, Except.pure] at h
    split at h
    · cases h
    · split at h
      · simp only [Except.ok.injEq, Prod.mk.injEq] at h
        obtain ⟨rfl, rfl, rfl⟩ := h
        exact ⟨fun c hc => Or.inl hc, fun e he => Or.inl he, Or.inl rfl⟩
      · split at h
        · cases h
        · split at h
          · cases h
          · split at h
            · cases h
            · split at h
              · cases h
              · split at h
                · rename_i s _
                  have hp' : ((done ++ [Component.zero]) ++ t).Pairwise Apart := by
                    rw [List.append_assoc, List.singleton_append, List.pairwise_append,
                      List.pairwise_cons] at *
                    refine ⟨hp.1, ⟨?_, hp.2.1.2⟩, ?_⟩
                    · intro a _ v hv
                      simp [Component.zero, vars_zero] at hv
                    · intro a ha b hb
                      rcases List.mem_cons.1 hb with rfl | hb
                      · intro v _
                        simp [Component.zero, vars_zero]
                      · exact hp.2.2 a ha b (by simp [hb])
                  obtain ⟨h1, h2, h3⟩ := ih hp' h
                  have h1' : ∀ c ∈ cs, c ∈ done ∨ c ∈ t ∨ c = Component.zero := by
                    intro c hc
                    rcases h1 c hc with h4 | h4
                    · simp only [List.append_assoc, List.singleton_append, List.mem_append,
                        List.mem_cons] at h4
                      tauto
                    · exact Or.inr (Or.inr h4)
                  refine ⟨?_, ?_, Or.inr ⟨cand, by simp, ?_⟩⟩
                  · intro c hc
                    rcases h1' c hc with h4 | h4 | h4
                    · exact Or.inl (by simp [h4])
                    · exact Or.inl (by simp [h4])
                    · exact Or.inr h4
                  · intro e he
                    rcases h2 e he with h4 | ⟨c, hc, s', h4⟩
                    · rcases List.mem_append.1 h4 with h4 | h4
                      · exact Or.inl h4
                      · rw [List.mem_singleton] at h4
                        exact Or.inr ⟨cand, by simp, s, h4⟩
                    · exact Or.inr ⟨c, by simp [hc], s', h4⟩
                  · intro v hv d hd
                    rw [List.pairwise_append, List.pairwise_cons] at hp
                    rcases h1' d hd with h4 | h4 | h4
                    · exact (hp.2.2 d h4 cand (by simp)).symm v hv
                    · exact hp.2.1.1 d h4 v hv
                    · rw [h4]
                      simp [Component.zero, vars_zero]
                · have hp' : ((done ++ [cand]) ++ t).Pairwise Apart := by
                    rwa [List.append_assoc, List.singleton_append]
                  obtain ⟨h1, h2, h3⟩ := ih hp' h
                  refine ⟨?_, ?_, ?_⟩
                  · intro c hc
                    rcases h1 c hc with h4 | h4
                    · exact Or.inl (by simpa using h4)
                    · exact Or.inr h4
                  · intro e he
                    rcases h2 e he with h4 | ⟨c, hc, s', h4⟩
                    · exact Or.inl h4
                    · exact Or.inr ⟨c, by simp [hc], s', h4⟩
                  · rcases h3 with h3 | ⟨c, hc, h3⟩
                    · exact Or.inl h3
                    · exact Or.inr ⟨c, by simp [hc], h3⟩

theorem recombine_affine {cs : List (Component p V)} {k : ZMod p}
    (h : ∀ c ∈ cs, c.expr.isAffine = true) : (recombine cs k).isAffine = true := by
  unfold recombine
  split
  · rename_i c hc
    have hm : c ∈ cs := by
      have : c ∈ cs.filter fun c => !c.isZero := by rw [hc]; simp
      exact (List.mem_filter.1 this).1
    exact affine_add (h c hm) (affine_const _)
  · refine affine_add (affine_sum ?_) (affine_const _)
    intro e he
    obtain ⟨c, hc, rfl⟩ := List.mem_map.1 he
    exact affine_scale _ (h c (List.mem_filter.1 hc).1)

theorem recombine_vars {cs : List (Component p V)} {k : ZMod p} {v : V}
    (h : v ∈ vars (recombine cs k)) : ∃ c ∈ cs, v ∈ vars c.expr := by
  unfold recombine at h
  split at h
  · rename_i c hc
    have hm : c ∈ cs := by
      have : c ∈ cs.filter fun c => !c.isZero := by rw [hc]; simp
      exact (List.mem_filter.1 this).1
    rcases vars_add_subset _ _ h with h | h
    · exact ⟨c, hm, h⟩
    · rw [vars_const] at h; cases h
  · rcases vars_add_subset _ _ h with h | h
    · exact vars_sum_closed (S := fun v => ∃ c ∈ cs, v ∈ vars c.expr) (fun e he v hv => by
        obtain ⟨c, hc, rfl⟩ := List.mem_map.1 he
        exact ⟨c, (List.mem_filter.1 hc).1, vars_scale_subset _ _ hv⟩) v h
    · rw [vars_const] at h; cases h

/-- The parts are affine and each of them lacks a variable of the constraint. -/
theorem trySplit_fewer {rc : V → RangeConstraint p} {e : GExpr p V} {parts : List (GExpr p V)}
    (hw : WF e) (h : trySplit rc e = .ok (some parts)) :
    ∀ f ∈ parts, f.isAffine = true ∧ (∀ v ∈ vars f, v ∈ vars e) ∧
      ∃ v ∈ vars e, v ∉ vars f := by
  obtain ⟨q, l, c⟩ := e
  unfold trySplit trySplitFuel at h
  split at h
  · cases h
  · split at h
    · cases h
    · simp only at h
      split at h
      · cases h
      · rename_i hlen
        simp only [linear] at h hlen
        obtain ⟨g1, g2⟩ := groupComponents_apart (p := p) (wf_inv hw).2.1
        have hvars : ∀ v ∈ l.map (·.1), v ∈ vars (mk q l c) := by
          intro v hv
          rw [vars]
          exact List.mem_append_right _ hv
        generalize groupComponents (l.map fun x => (⟨x.2, var x.1⟩ : Component p V)) = cs at *
        cases hs : splitLoop rc 3 [] cs (mk q l c).constant [] with
        | error err => rw [hs] at h; cases h
        | ok r =>
          obtain ⟨cs', k', parts'⟩ := r
          rw [hs] at h
          obtain ⟨h1, h2, h3⟩ := splitLoop_apart (by simpa using g1) hs
          simp only [bind, Except.bind, pure, Except.pure, Except.ok.injEq] at h
          split at h
          · cases h
          · rename_i hne
            simp only [Option.some.injEq] at h
            subst h
            intro f hf
            rcases List.mem_append.1 hf with hf | hf
            · rcases h2 f hf with h4 | ⟨d, hd, s, rfl⟩
              · cases h4
              · have hsub : ∀ v ∈ vars (d.expr - const s), v ∈ vars d.expr := by
                  intro v hv
                  rcases vars_sub_subset _ _ hv with hv | hv
                  · exact hv
                  · rw [vars_const] at hv; cases hv
                refine ⟨affine_sub (g2 d hd).1.1 (affine_const s), ?_, ?_⟩
                · exact fun v hv => hvars v ((g2 d hd).2.2 v (hsub v hv))
                · -- another component
                  obtain ⟨d', hd', hap⟩ : ∃ d' ∈ cs, Apart d' d := by
                    obtain ⟨a, b, rfl⟩ := List.append_of_mem hd
                    rw [List.pairwise_append, List.pairwise_cons] at g1
                    rcases a with _ | ⟨x, a⟩
                    · rcases b with _ | ⟨y, b⟩
                      · simp at hlen
                      · exact ⟨y, by simp, (g1.2.1.1 y (by simp)).symm⟩
                    · exact ⟨x, by simp, g1.2.2 x (by simp) d (by simp)⟩
                  obtain ⟨v, hv⟩ := List.exists_mem_of_ne_nil _ (g2 d' hd').2.1
                  exact ⟨v, hvars v ((g2 d' hd').2.2 v hv), fun h' => hap v hv (hsub v h')⟩
            · rw [List.mem_singleton] at hf
              subst hf
              have h1' : ∀ d ∈ cs', (d ∈ cs ∨ d = Component.zero) := by
                intro d hd
                simpa using h1 d hd
              refine ⟨recombine_affine ?_, ?_, ?_⟩
              · intro d hd
                rcases h1' d hd with h4 | h4
                · exact (g2 d h4).1.1
                · rw [h4]; exact affine_const 0
              · intro v hv
                obtain ⟨d, hd, hv⟩ := recombine_vars hv
                rcases h1' d hd with h4 | h4
                · exact hvars v ((g2 d h4).2.2 v hv)
                · rw [h4] at hv
                  simp [Component.zero, vars_zero] at hv
              · rcases h3 with h3 | ⟨d, hd, h3⟩
                · rw [h3] at hne
                  simp at hne
                · obtain ⟨v, hv⟩ := List.exists_mem_of_ne_nil _ (g2 d hd).2.1
                  refine ⟨v, hvars v ((g2 d hd).2.2 v hv), fun hv' => ?_⟩
                  obtain ⟨d', hd', hv'⟩ := recombine_vars hv'
                  exact h3 v hv d' hd' hv'

end Splitter

end Verif
