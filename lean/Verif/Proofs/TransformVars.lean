import Verif.Proofs.GroupedExpressionSubst

/-! Helper lemmas about `transformVars` -/

namespace Verif.GExpr

set_option linter.unusedSectionVars false

variable {p : ℕ} [Fact p.Prime] {V W : Type} [LinearOrder V] [LinearOrder W]

theorem mem_insertEntry {x : W} {c : ZMod p} {l : List (W × ZMod p)} {e : W × ZMod p}
    (h : e ∈ insertEntry x c l) : e = (x, c) ∨ e ∈ l := by
  induction l with
  | nil => simpa [insertEntry] using h
  | cons a t ih =>
    obtain ⟨w, d⟩ := a
    unfold insertEntry at h
    split at h
    · simp only [List.mem_cons] at h ⊢; tauto
    · split at h
      · simp only [List.mem_cons] at h ⊢; tauto
      · simp only [List.mem_cons] at h ⊢
        rcases h with h | h
        · tauto
        · rcases ih h with h | h <;> tauto

theorem sum_insertEntry (τ : W → ZMod p) {x : W} {c : ZMod p} {l : List (W × ZMod p)}
    (h : ∀ e ∈ l, e.1 ≠ x) :
    ((insertEntry x c l).map fun e => e.2 * τ e.1).sum =
      c * τ x + (l.map fun e => e.2 * τ e.1).sum := by
  induction l with
  | nil => simp [insertEntry]
  | cons a t ih =>
    obtain ⟨w, d⟩ := a
    unfold insertEntry
    have hne : x ≠ w := fun hh => h (w, d) List.mem_cons_self hh.symm
    rw [if_neg hne]
    split
    · simp
    · rw [List.map_cons, List.sum_cons, ih fun e he => h e (List.mem_cons_of_mem _ he),
        List.map_cons, List.sum_cons]
      ring

theorem sorted_insertEntry {x : W} {c : ZMod p} {l : List (W × ZMod p)}
    (h : l.Pairwise fun e f => e.1 < f.1) :
    (insertEntry x c l).Pairwise fun e f => e.1 < f.1 := by
  induction l with
  | nil => simp [insertEntry]
  | cons a t ih =>
    obtain ⟨w, d⟩ := a
    rw [List.pairwise_cons] at h
    unfold insertEntry
    split
    · rename_i hxw
      subst hxw
      exact List.pairwise_cons.2 h
    · rename_i hne
      split
      · rename_i hlt
        refine List.pairwise_cons.2 ⟨?_, List.pairwise_cons.2 h⟩
        intro e he
        rcases List.mem_cons.1 he with rfl | he
        · exact hlt
        · exact lt_trans hlt (h.1 e he)
      · rename_i hnlt
        refine List.pairwise_cons.2 ⟨?_, ih h.2⟩
        intro e he
        rcases mem_insertEntry he with rfl | he
        · exact lt_of_le_of_ne (not_lt.1 hnlt) (Ne.symm hne)
        · exact h.1 e he

theorem mem_foldInsert {l : List (W × ZMod p)} {m : List (W × ZMod p)} {e : W × ZMod p}
    (h : e ∈ l.foldl (fun m e => insertEntry e.1 e.2 m) m) : e ∈ l ∨ e ∈ m := by
  induction l generalizing m with
  | nil => exact Or.inr h
  | cons a t ih =>
    rcases ih h with h | h
    · exact Or.inl (List.mem_cons_of_mem _ h)
    · rcases mem_insertEntry h with rfl | h
      · exact Or.inl List.mem_cons_self
      · exact Or.inr h

theorem sorted_foldInsert {l : List (W × ZMod p)} {m : List (W × ZMod p)}
    (h : m.Pairwise fun e f => e.1 < f.1) :
    (l.foldl (fun m e => insertEntry e.1 e.2 m) m).Pairwise fun e f => e.1 < f.1 := by
  induction l generalizing m with
  | nil => exact h
  | cons a t ih => exact ih (sorted_insertEntry h)

theorem sum_foldInsert (τ : W → ZMod p) {l : List (W × ZMod p)} {m : List (W × ZMod p)}
    (hn : (l.map (·.1)).Nodup) (hd : ∀ e ∈ l, ∀ f ∈ m, f.1 ≠ e.1) :
    ((l.foldl (fun m e => insertEntry e.1 e.2 m) m).map fun e => e.2 * τ e.1).sum =
      (l.map fun e => e.2 * τ e.1).sum + (m.map fun e => e.2 * τ e.1).sum := by
  induction l generalizing m with
  | nil => simp
  | cons a t ih =>
    rw [List.map_cons, List.nodup_cons] at hn
    rw [List.foldl_cons, ih hn.2, sum_insertEntry τ (hd a List.mem_cons_self)]
    · rw [List.map_cons, List.sum_cons]; ring
    · intro e he f hf
      rcases mem_insertEntry hf with rfl | hf
      · intro heq
        exact hn.1 (List.mem_map.2 ⟨e, he, heq.symm⟩)
      · exact hd e (List.mem_cons_of_mem _ he) f hf

theorem mapM_entries {f : V → Option W} {l : List (V × ZMod p)} {l' : List (W × ZMod p)}
    (h : (l.mapM fun (x : V × ZMod p) => (f x.1).map fun w => (w, x.2)) = some l') :
    List.Forall₂ (fun e e' => f e.1 = some e'.1 ∧ e.2 = e'.2) l l' := by
  induction l generalizing l' with
  | nil => simp at h; subst h; exact .nil
  | cons a t ih =>
    simp only [List.mapM_cons, Option.bind_eq_bind, Option.pure_def, Option.bind_eq_some_iff,
      Option.map_eq_some_iff, Option.some.injEq] at h
    obtain ⟨b, ⟨w, hw, rfl⟩, t', ht', rfl⟩ := h
    exact .cons ⟨hw, rfl⟩ (ih ht')

theorem forall₂_left {α β : Type} {R : α → β → Prop} {l : List α} {l' : List β}
    (h : List.Forall₂ R l l') {b : β} (hb : b ∈ l') : ∃ a ∈ l, R a b := by
  induction h with
  | nil => cases hb
  | cons hr _ ih =>
    rcases List.mem_cons.1 hb with rfl | hb
    · exact ⟨_, List.mem_cons_self, hr⟩
    · obtain ⟨a, ha, hr⟩ := ih hb
      exact ⟨a, List.mem_cons_of_mem _ ha, hr⟩

theorem transformVars_inv {f : V → Option W} {q : List (GExpr p V × GExpr p V)}
    {l : List (V × ZMod p)} {c : ZMod p} {e' : GExpr p W}
    (h : transformVars f (mk q l c) = some e') :
    ∃ (q' : List (GExpr p W × GExpr p W)) (l' : List (W × ZMod p)), transformVarsQ f q = some q' ∧
      List.Forall₂ (fun e e' => f e.1 = some e'.1 ∧ e.2 = e'.2) l l' ∧
      e' = mk q' (l'.foldl (fun m e => insertEntry e.1 e.2 m) []) c := by
  rw [transformVars] at h
  simp only [Option.bind_eq_bind, Option.pure_def, Option.bind_eq_some_iff, Option.some.injEq] at h
  obtain ⟨q', hq, l', hl, rfl⟩ := h
  exact ⟨q', l', hq, mapM_entries hl, rfl⟩

theorem transformVarsQ_forall {f : V → Option W} {q : List (GExpr p V × GExpr p V)}
    {q' : List (GExpr p W × GExpr p W)} (h : transformVarsQ f q = some q') :
    List.Forall₂ (fun ab ab' => transformVars f ab.1 = some ab'.1 ∧
      transformVars f ab.2 = some ab'.2) q q' := by
  induction q generalizing q' with
  | nil => rw [transformVarsQ] at h; cases h; exact .nil
  | cons ab t ih =>
    obtain ⟨a, b⟩ := ab
    rw [transformVarsQ] at h
    simp only [Option.bind_eq_bind, Option.pure_def, Option.bind_eq_some_iff,
      Option.some.injEq] at h
    obtain ⟨a', ha, b', hb, t', ht, rfl⟩ := h
    exact .cons ⟨ha, hb⟩ (ih ht)

theorem nodup_keys_of_forall₂ {f : V → Option W}
    (hinj : ∀ v v' w, f v = some w → f v' = some w → v = v')
    {l : List (V × ZMod p)} {l' : List (W × ZMod p)}
    (h : List.Forall₂ (fun e e' => f e.1 = some e'.1 ∧ e.2 = e'.2) l l')
    (hs : l.Pairwise fun e f => e.1 < f.1) : (l'.map (·.1)).Nodup := by
  induction h with
  | nil => simp
  | @cons a b l l' hr ht ih =>
    rw [List.pairwise_cons] at hs
    rw [List.map_cons, List.nodup_cons]
    refine ⟨?_, ih hs.2⟩
    intro hm
    obtain ⟨e', he', heq⟩ := List.mem_map.1 hm
    obtain ⟨e, he, hfe, _⟩ := forall₂_left ht he'
    have : e.1 = a.1 := hinj _ _ b.1 (heq ▸ hfe) hr.1
    exact absurd (hs.1 e he) (by rw [this]; exact lt_irrefl _)

theorem eval_transformVars {f : V → Option W}
    (hinj : ∀ v v' w, f v = some w → f v' = some w → v = v')
    (σ : V → ZMod p) (τ : W → ZMod p) (hστ : ∀ v w, f v = some w → σ v = τ w)
    {e : GExpr p V} {e' : GExpr p W} (hw : WF e) (h : transformVars f e = some e') :
    eval τ e' = eval σ e ∧ WF e' := by
  induction e using GExpr.ind generalizing e' with
  | h q l c ih =>
    obtain ⟨q', l', hq, hl, rfl⟩ := transformVars_inv h
    obtain ⟨w1, w2, w3⟩ := wf_inv hw
    have hqf := transformVarsQ_forall hq
    have hlin : ((l'.foldl (fun m e => insertEntry e.1 e.2 m) []).map fun e => e.2 * τ e.1).sum =
        (l.map fun e => e.2 * σ e.1).sum := by
      rw [sum_foldInsert τ (nodup_keys_of_forall₂ hinj hl w2) (by simp)]
      clear hw h w1 w2 w3
      induction hl with
      | nil => simp
      | cons hr _ ih2 =>
        simp only [List.map_cons, List.sum_cons, List.map_nil, List.sum_nil, add_zero] at ih2 ⊢
        rw [ih2, hστ _ _ hr.1, hr.2]
    constructor
    · unfold eval
      rw [evalIn_mk, evalIn_mk]
      simp only [RingHom.id_apply]
      have hl2 : evalL (RingHom.id (ZMod p)) τ (l'.foldl (fun m e => insertEntry e.1 e.2 m) []) =
          evalL (RingHom.id (ZMod p)) σ l := hlin
      rw [hl2]
      congr 2
      clear hl hl2 hlin h hw hq w2 w3
      induction hqf with
      | nil => simp [evalInQ_nil]
      | @cons ab ab' t t' hr ht ih2 =>
        rw [evalInQ_cons, evalInQ_cons]
        have i := ih ab List.mem_cons_self
        have w := w1 ab List.mem_cons_self
        have e1 := (i.1 w.1 hr.1).1
        have e2 := (i.2 w.2.1 hr.2).1
        unfold eval at e1 e2
        rw [e1, e2, ih2 (fun ab hab => ih ab (List.mem_cons_of_mem _ hab))
          (fun ab hab => w1 ab (List.mem_cons_of_mem _ hab))]
    · refine wf_intro ?_ ?_ ?_
      · intro ab' hab'
        obtain ⟨ab, hab, hr⟩ := forall₂_left hqf hab'
        have w := w1 ab hab
        have i := ih ab hab
        have known : ∀ (a : GExpr p V) (a' : GExpr p W), a.tryToKnown = none →
            transformVars f a = some a' → a'.tryToKnown = none := by
          intro a a' hn ht
          rcases a with ⟨qa, la, ca⟩
          obtain ⟨qa', la', hqa, hla, rfl⟩ := transformVars_inv ht
          rw [tryToKnown_none_iff] at hn ⊢
          rcases hn with hn | hn
          · left
            rintro rfl
            have := transformVarsQ_forall hqa
            cases this
            exact hn rfl
          · right
            cases hla with
            | nil => exact absurd rfl hn
            | @cons a b l l' hr ht =>
              have key : ∀ (l : List (W × ZMod p)) (m : List (W × ZMod p)), m ≠ [] →
                  l.foldl (fun m e => insertEntry e.1 e.2 m) m ≠ [] := by
                intro l
                induction l with
                | nil => exact fun m h => h
                | cons a t ih =>
                  intro m _
                  apply ih
                  cases m with
                  | nil => simp [insertEntry]
                  | cons b m =>
                    obtain ⟨b1, b2⟩ := b
                    simp only [insertEntry]
                    split
                    · simp
                    · split <;> simp
              exact key l' (insertEntry b.1 b.2 []) (by simp [insertEntry])
        exact ⟨(i.1 w.1 hr.1).2, (i.2 w.2.1 hr.2).2, known _ _ w.2.2.1 hr.1,
          known _ _ w.2.2.2 hr.2⟩
      · exact sorted_foldInsert List.Pairwise.nil
      · intro e' he'
        rcases mem_foldInsert he' with h | h
        · obtain ⟨e, he, hr⟩ := forall₂_left hl h
          rw [← hr.2]; exact w3 e he
        · cases h

end Verif.GExpr
