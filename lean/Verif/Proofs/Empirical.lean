import Verif.Spec.Empirical
import Verif.Proofs.Partition

/-! # Proofs about empirical constraints -/

set_option linter.unusedSectionVars false

namespace Verif

section
variable {K V : Type} [DecidableEq K]

theorem lookup_upsert [BEq K] [LawfulBEq K] (k : K) (f : V → V) (v : V) (k' : K) : ∀ m : List (K × V),
    (pcMapUpsert k f v m).lookup k' =
      if k' = k then some ((m.lookup k).elim v f) else m.lookup k'
  | [] => by
    by_cases h : k' = k
    · subst h
      simp [pcMapUpsert]
    · simp [pcMapUpsert, h, List.lookup_cons, beq_false_of_ne h]
  | (k₀, w) :: t => by
    rw [pcMapUpsert]
    by_cases h0 : k₀ = k
    · subst h0
      rw [if_pos rfl]
      by_cases h : k' = k₀
      · subst h
        simp
      · simp [h, List.lookup_cons, beq_false_of_ne h]
    · rw [if_neg h0, List.lookup_cons, lookup_upsert k f v k' t]
      by_cases h : k' = k
      · subst h
        simp only [if_true, List.lookup_cons, beq_false_of_ne (Ne.symm h0)]
      · simp only [if_neg h, List.lookup_cons]

theorem lookup_insert [BEq K] [LawfulBEq K] (k : K) (v : V) (k' : K) (m : List (K × V)) :
    (pcMapInsert k v m).lookup k' = if k' = k then some v else m.lookup k' := by
  rw [pcMapInsert, lookup_upsert]
  by_cases h : k' = k
  · simp only [if_pos h]
    cases m.lookup k <;> rfl
  · simp only [if_neg h]

theorem upsert_keys (k : K) (f : V → V) (v : V) : ∀ m : List (K × V),
    (pcMapUpsert k f v m).map Prod.fst =
      if k ∈ m.map Prod.fst then m.map Prod.fst else m.map Prod.fst ++ [k]
  | [] => by simp [pcMapUpsert]
  | (k₀, w) :: t => by
    rw [pcMapUpsert]
    by_cases h0 : k₀ = k
    · subst h0
      simp
    · rw [if_neg h0, List.map_cons, upsert_keys k f v t]
      simp only [List.map_cons, List.mem_cons, Ne.symm h0, false_or]
      by_cases h : k ∈ t.map Prod.fst
      · rw [if_pos h, if_pos h]
      · rw [if_neg h, if_neg h]
        rfl

theorem upsert_nodup {k : K} {f : V → V} {v : V} {m : List (K × V)} (h : MapKeys m) :
    MapKeys (pcMapUpsert k f v m) := by
  rw [MapKeys, upsert_keys]
  by_cases hk : k ∈ m.map Prod.fst
  · rw [if_pos hk]
    exact h
  · rw [if_neg hk, List.nodup_append]
    refine ⟨h, by simp, ?_⟩
    intro a ha b hb hab
    rw [List.mem_singleton] at hb
    exact hk (hb ▸ hab ▸ ha)

theorem mem_upsert_val {k : K} {f : V → V} {v : V} {P : V → Prop} : ∀ {m : List (K × V)},
    (∀ x ∈ m, P x.2) → P v → (∀ w, P w → P (f w)) → ∀ x ∈ pcMapUpsert k f v m, P x.2
  | [], _, hv, _, x, hx => by
    rw [pcMapUpsert, List.mem_singleton] at hx
    subst hx
    exact hv
  | (k₀, w) :: t, hm, hv, hf, x, hx => by
    rw [pcMapUpsert] at hx
    by_cases h0 : k₀ = k
    · rw [if_pos h0, List.mem_cons] at hx
      rcases hx with rfl | hx
      · exact hf _ (hm (k₀, w) (by simp))
      · exact hm x (by simp [hx])
    · rw [if_neg h0, List.mem_cons] at hx
      rcases hx with rfl | hx
      · exact hm (k₀, w) (by simp)
      · exact mem_upsert_val (fun y hy => hm y (by simp [hy])) hv hf x hx

theorem lookup_pcMapRemove (k k' : K) : ∀ m : List (K × V),
    (pcMapRemove k m).lookup k' = if k' = k then none else m.lookup k'
  | [] => by simp [pcMapRemove]
  | (k₀, w) :: t => by
    have ih := lookup_pcMapRemove k k' t
    rw [pcMapRemove] at ih
    rw [pcMapRemove, List.filter_cons]
    by_cases h0 : k₀ = k
    · subst h0
      simp only [ne_eq, not_true_eq_false, decide_false, Bool.false_eq_true, if_false]
      rw [ih]
      by_cases h : k' = k₀
      · rw [if_pos h, if_pos h]
      · rw [if_neg h, if_neg h, List.lookup_cons, beq_false_of_ne h]
    · simp only [ne_eq, h0, not_false_eq_true, decide_true, if_true]
      rw [List.lookup_cons, ih, List.lookup_cons]
      by_cases h : k' = k
      · subst h
        simp [beq_false_of_ne (Ne.symm h0)]
      · simp [h]

theorem pcMap_lookup_mem {m : List (K × V)} {k : K} {v : V} (h : m.lookup k = some v) : (k, v) ∈ m := by
  induction m with
  | nil => simp at h
  | cons x t ih =>
    obtain ⟨k₀, w⟩ := x
    rw [List.lookup_cons] at h
    by_cases h0 : k = k₀
    · subst h0
      simp only [beq_self_eq_true, Option.some.injEq] at h
      subst h
      exact List.mem_cons_self
    · rw [beq_false_of_ne h0] at h
      exact List.mem_cons_of_mem _ (ih h)

theorem mem_lookup {m : List (K × V)} (hk : MapKeys m) {k : K} {v : V} (h : (k, v) ∈ m) :
    m.lookup k = some v := by
  induction m with
  | nil => simp at h
  | cons x t ih =>
    obtain ⟨k₀, w⟩ := x
    rw [MapKeys, List.map_cons, List.nodup_cons] at hk
    rw [List.lookup_cons]
    rcases List.mem_cons.1 h with he | h
    · cases he
      simp
    · have : k ≠ k₀ := by
        rintro rfl
        exact hk.1 (List.mem_map.2 ⟨(k, v), by assumption, rfl⟩)
      rw [beq_false_of_ne this]
      exact ih hk.2 h

theorem lookup_none {m : List (K × V)} {k : K} : m.lookup k = none ↔ k ∉ m.map Prod.fst := by
  rw [List.lookup_eq_none_iff]
  simp only [List.mem_map, not_exists, not_and]
  constructor
  · intro h x hx he
    have := h x hx
    rw [he] at this
    simp at this
  · intro h x hx
    simp only [bne, beq_false_of_ne fun he => h x hx (Eq.symm he), Bool.not_false]

theorem MapKeys.tail {k : K} {v : V} {t : List (K × V)} (h : MapKeys ((k, v) :: t)) :
    MapKeys t ∧ t.lookup k = none := by
  rw [MapKeys, List.map_cons, List.nodup_cons] at h
  exact ⟨h.2, lookup_none.2 h.1⟩

theorem mergeMaps_spec [DecidableEq V] : ∀ {b a : List (K × V)}, MapKeys b → MapKeys a →
    (MapsAgree a b → ∃ r, mergeMaps a b = .ok r ∧ MapKeys r ∧
      ∀ k, r.lookup k = (a.lookup k).or (b.lookup k)) ∧
    (¬ MapsAgree a b → mergeMaps a b = .error .panic)
  | [], a, _, ha => by
    refine ⟨fun _ => ⟨a, rfl, ha, by simp⟩, fun h => absurd ?_ h⟩
    intro k v w _ hw
    simp at hw
  | (k, v) :: t, a, hb, ha => by
    obtain ⟨ht, hkt⟩ := hb.tail
    rw [mergeMaps]
    cases hk : a.lookup k with
    | none =>
      simp only
      have ih := mergeMaps_spec (a := pcMapInsert k v a) ht (upsert_nodup ha)
      have hag : MapsAgree (pcMapInsert k v a) t ↔ MapsAgree a ((k, v) :: t) := by
        constructor
        · intro h k' v' w' hv hw
          rw [List.lookup_cons] at hw
          by_cases he : k' = k
          · subst he
            rw [hk] at hv
            cases hv
          · rw [beq_false_of_ne he] at hw
            refine h k' v' w' ?_ hw
            rw [lookup_insert, if_neg he]
            exact hv
        · intro h k' v' w' hv hw
          by_cases he : k' = k
          · subst he
            rw [hkt] at hw
            cases hw
          · rw [lookup_insert, if_neg he] at hv
            refine h k' v' w' hv ?_
            rw [List.lookup_cons, beq_false_of_ne he]
            exact hw
      rw [hag] at ih
      refine ⟨fun h => ?_, ih.2⟩
      obtain ⟨r, h1, h2, h3⟩ := ih.1 h
      refine ⟨r, h1, h2, fun k' => ?_⟩
      rw [h3, lookup_insert, List.lookup_cons]
      by_cases he : k' = k
      · subst he
        simp [hk]
      · simp [he, beq_false_of_ne he]
    | some w =>
      simp only
      by_cases hw : w = v
      · subst hw
        rw [if_pos rfl]
        have ih := mergeMaps_spec (a := a) ht ha
        have hag : MapsAgree a t ↔ MapsAgree a ((k, w) :: t) := by
          constructor
          · intro h k' v' w' hv hw
            rw [List.lookup_cons] at hw
            by_cases he : k' = k
            · subst he
              simp only [beq_self_eq_true, Option.some.injEq] at hw
              rw [hk] at hv
              cases hv
              exact hw
            · rw [beq_false_of_ne he] at hw
              exact h k' v' w' hv hw
          · intro h k' v' w' hv hw
            have he : k' ≠ k := by
              rintro rfl
              rw [hkt] at hw
              cases hw
            refine h k' v' w' hv ?_
            rw [List.lookup_cons, beq_false_of_ne he]
            exact hw
        rw [hag] at ih
        refine ⟨fun h => ?_, ih.2⟩
        obtain ⟨r, h1, h2, h3⟩ := ih.1 h
        refine ⟨r, h1, h2, fun k' => ?_⟩
        rw [h3, List.lookup_cons]
        by_cases he : k' = k
        · subst he
          simp [hk]
        · simp [beq_false_of_ne he]
      · rw [if_neg hw]
        refine ⟨fun h => ?_, fun _ => rfl⟩
        exact absurd (h k w v hk (by simp)) hw

end

theorem widenLoop_getElem : ∀ (ranges existing : List (ℕ × ℕ)) (i j : ℕ),
    (widenLoop existing i ranges)[j]? =
      if j < i then existing[j]? else hull existing[j]? ranges[j - i]?
  | [], existing, i, j => by
    rw [widenLoop]
    by_cases h : j < i
    · rw [if_pos h]
    · rw [if_neg h, List.getElem?_nil]
      cases existing[j]? <;> rfl
  | (mn, mx) :: t, existing, i, j => by
    rw [widenLoop, widenLoop_getElem]
    by_cases h : j < i
    · rw [if_pos (by omega), if_pos h, List.getElem?_modify]
      have : ¬ i = j := by omega
      simp only [this, if_false]
      cases existing[j]? <;> rfl
    · rw [if_neg h]
      by_cases hij : j = i
      · subst hij
        rw [if_pos (by omega), List.getElem?_modify, Nat.sub_self, List.getElem?_cons_zero]
        simp only [if_true]
        cases existing[j]? <;> rfl
      · rw [if_neg (by omega), List.getElem?_modify]
        have : ¬ i = j := by omega
        simp only [this, if_false]
        obtain ⟨k, rfl⟩ : ∃ k, j = i + 1 + k := ⟨j - (i + 1), by omega⟩
        have e1 : i + 1 + k - (i + 1) = k := by omega
        have e2 : i + 1 + k - i = k + 1 := by omega
        rw [e1, e2, List.getElem?_cons_succ]
        cases existing[i + 1 + k]? <;> rfl

theorem combineRanges_spec : ∀ {b a : List (ℕ × List (ℕ × ℕ))}, MapKeys b → MapKeys a →
    MapKeys (combineRanges a b) ∧ ∀ pc, (combineRanges a b).lookup pc =
      match a.lookup pc, b.lookup pc with
      | none, y => y
      | some x, none => some x
      | some x, some y => some (widenLoop x 0 y)
  | [], a, _, ha => by
    refine ⟨ha, fun pc => ?_⟩
    rw [combineRanges, List.lookup_nil]
    cases a.lookup pc <;> rfl
  | (k, rs) :: t, a, hb, ha => by
    obtain ⟨ht, hkt⟩ := hb.tail
    obtain ⟨h1, h2⟩ := combineRanges_spec (a := pcMapUpsert k (fun ex => widenLoop ex 0 rs) rs a) ht
      (upsert_nodup ha)
    refine ⟨h1, fun pc => ?_⟩
    rw [combineRanges, h2, lookup_upsert, List.lookup_cons]
    by_cases he : pc = k
    · subst he
      rw [if_pos rfl, hkt, beq_self_eq_true]
      cases a.lookup pc <;> rfl
    · rw [if_neg he, beq_false_of_ne he]

theorem combineCounts_spec : ∀ {b a : List (ℕ × ℕ)}, MapKeys b → MapKeys a →
    MapKeys (combineCounts a b) ∧ ∀ pc, ((combineCounts a b).lookup pc).getD 0 =
      (a.lookup pc).getD 0 + (b.lookup pc).getD 0
  | [], a, _, ha => ⟨ha, fun pc => by simp [combineCounts]⟩
  | (k, c) :: t, a, hb, ha => by
    obtain ⟨ht, hkt⟩ := hb.tail
    obtain ⟨h1, h2⟩ := combineCounts_spec (a := pcMapUpsert k (fun n => n + c) (0 + c) a) ht
      (upsert_nodup ha)
    refine ⟨h1, fun pc => ?_⟩
    rw [combineCounts, h2, lookup_upsert, List.lookup_cons]
    by_cases he : pc = k
    · subst he
      rw [if_pos rfl, hkt, beq_self_eq_true]
      cases a.lookup pc <;> simp
    · rw [if_neg he, beq_false_of_ne he]

theorem combineClasses_ok : ∀ {b a : List (ℕ × Partition BlockCell)} {r}, MapKeys b → MapKeys a →
    (∀ x ∈ b, x.2.WF) → (∀ x ∈ a, x.2.WF) → CombineClasses a b r →
    ∃ s, r = .ok s ∧ MapKeys s ∧ (∀ x ∈ s, x.2.WF) ∧ ∀ k,
      match a.lookup k, b.lookup k with
      | none, y => s.lookup k = y
      | some x, none => s.lookup k = some x
      | some x, some y => ∃ z, s.lookup k = some z ∧ ∀ u v, z.Same u v ↔ x.Same u v ∧ y.Same u v
  | [], a, r, _, ha, _, hwa, h => by
    cases h
    refine ⟨a, rfl, ha, hwa, fun k => ?_⟩
    rw [List.lookup_nil]
    cases hk : a.lookup k <;> simp
  | (k, p) :: t, a, r, hb, ha, hwb, hwa, h => by
    obtain ⟨ht, hkt⟩ := hb.tail
    have hp : p.WF := hwb (k, p) (by simp)
    have hwt : ∀ x ∈ t, x.2.WF := fun x hx => hwb x (by simp [hx])
    cases h with
    | vacant h1 h2 =>
      obtain ⟨s, e, h3, h4, h5⟩ := combineClasses_ok ht (upsert_nodup ha) hwt
        (mem_upsert_val hwa hp fun _ _ => hp) h2
      refine ⟨s, e, h3, h4, fun k' => ?_⟩
      have := h5 k'
      rw [show pcMapUpsert k (fun _ => p) p a = pcMapInsert k p a from rfl, lookup_insert] at this
      rw [List.lookup_cons]
      by_cases he : k' = k
      · subst he
        rw [if_pos rfl, hkt] at this
        rw [h1, beq_self_eq_true]
        exact this
      · rw [if_neg he] at this
        rw [beq_false_of_ne he]
        exact this
    | @occupied _ _ _ _ _ p₀ q h1 h2 h3 =>
      obtain ⟨s', e, hq, hs⟩ := intersectedWith_ok (hwa _ (pcMap_lookup_mem h1)) hp h2
      cases e
      have hrk : MapKeys (pcMapRemove k a) := ha.sublist (List.filter_sublist.map _)
      obtain ⟨s, e, h4, h5, h6⟩ := combineClasses_ok ht (upsert_nodup hrk) hwt
        (mem_upsert_val (fun x hx => hwa x (List.mem_filter.1 hx).1) hq fun _ _ => hq) h3
      refine ⟨s, e, h4, h5, fun k' => ?_⟩
      have := h6 k'
      rw [show pcMapUpsert k (fun _ => q) q (pcMapRemove k a) = pcMapInsert k q (pcMapRemove k a) from rfl,
        lookup_insert, lookup_pcMapRemove] at this
      rw [List.lookup_cons]
      by_cases he : k' = k
      · subst he
        rw [if_pos rfl, hkt] at this
        rw [h1, beq_self_eq_true]
        exact ⟨q, this, hs⟩
      · rw [if_neg he, if_neg he] at this
        rw [beq_false_of_ne he]
        exact this
    | panic h1 h2 =>
      obtain ⟨s', e, -⟩ := intersectedWith_ok (hwa _ (pcMap_lookup_mem h1)) hp h2
      cases e

theorem combineClasses_exists : ∀ {b a : List (ℕ × Partition BlockCell)},
    ∃ r, CombineClasses a b r
  | [], a => ⟨_, .nil⟩
  | (k, p) :: t, a => by
    cases h : a.lookup k with
    | none =>
      obtain ⟨r, hr⟩ := combineClasses_exists (b := t) (a := pcMapInsert k p a)
      exact ⟨r, .vacant h hr⟩
    | some p₀ =>
      obtain ⟨r, hr⟩ := intersectedWith_exists p₀ p
      cases r with
      | error e => exact ⟨_, .panic h hr⟩
      | ok q =>
        obtain ⟨r, hr'⟩ := combineClasses_exists (b := t) (a := pcMapInsert k q (pcMapRemove k a))
        exact ⟨r, .occupied h hr hr'⟩

theorem default_same {α : Type} (x y : α) : (Partition.default : Partition α).Same x y ↔ x = y := by
  simp [Partition.Same, Partition.default]

theorem default_wf {α : Type} : (Partition.default : Partition α).WF := by
  refine ⟨by simp [Partition.elements, Partition.default], by simp [Partition.default], ?_⟩
  intro c hc
  simp [Partition.default] at hc

theorem blockClasses_wf {e : EmpiricalConstraints} (h : e.WF) (pc : ℕ) : (e.blockClasses pc).WF := by
  rw [EmpiricalConstraints.blockClasses]
  cases hl : e.equivalenceClassesByBlock.lookup pc with
  | none => exact default_wf
  | some p => exact h.classes _ (pcMap_lookup_mem hl)

/-! ## The constraints of a superblock -/

theorem same_elements {α : Type} [DecidableEq α] {p : Partition α} {x y : α} (h : p.Same x y)
    (hne : x ≠ y) : x ∈ p.elements ∧ y ∈ p.elements := by
  rcases h with h | ⟨c, hx, hy⟩
  · exact absurd h hne
  · exact ⟨List.mem_map.2 ⟨_, hx, rfl⟩, List.mem_map.2 ⟨_, hy, rfl⟩⟩

theorem element_same {α : Type} [DecidableEq α] {p : Partition α} (hp : p.WF) {x : α}
    (h : x ∈ p.elements) : ∃ y, x ≠ y ∧ p.Same x y := by
  obtain ⟨⟨x', c⟩, hx, rfl⟩ := List.mem_map.1 h
  obtain ⟨u, v, hne, hu, hv⟩ := hp.two c (hp.valid _ hx)
  by_cases hxu : x' = u
  · subst hxu
    exact ⟨v, hne, .inr ⟨c, hx, hv⟩⟩
  · exact ⟨u, hxu, .inr ⟨c, hx, hu⟩⟩

/-- Shifting never panics. -/
theorem shiftedClasses_ok {e : EmpiricalConstraints} (h : e.WF) {x : ℕ × ℕ} {r}
    (hr : e.ShiftedClasses x r) :
    ∃ s, r = .ok s ∧ s.WF ∧ ∀ u v, s.Same u v ↔ u = v ∨ ∃ u' v', u = (x.1 + u'.1, u'.2) ∧
      v = (x.1 + v'.1, v'.2) ∧ u' ≠ v' ∧ e.Equates x.2 u' v' := by
  have hinj : ∀ a b : BlockCell, (a.1 + x.1, a.2) = (b.1 + x.1, b.2) → a = b := by
    rintro ⟨a1, a2⟩ ⟨b1, b2⟩ he
    simp only [Prod.mk.injEq] at he ⊢
    omega
  obtain ⟨s, e1, h1, h2⟩ := (mapElements_ok (blockClasses_wf h x.2) hr).2 (by
    rintro ⟨a, -, b, -, hne, he⟩
    exact hne (hinj a b he))
  refine ⟨s, e1, h1, fun u v => ?_⟩
  rw [h2]
  constructor
  · rintro (h3 | ⟨a, b, rfl, rfl, ha, hb, hab⟩)
    · exact .inl h3
    · by_cases hab' : a = b
      · exact .inl (by rw [hab'])
      · exact .inr ⟨a, b, by rw [Nat.add_comm], by rw [Nat.add_comm], hab', hab⟩
  · rintro (h3 | ⟨a, b, rfl, rfl, hne, hab⟩)
    · exact .inl h3
    · obtain ⟨ha, hb⟩ := same_elements hab hne
      exact .inr ⟨a, b, by rw [Nat.add_comm], by rw [Nat.add_comm], ha, hb, hab⟩

theorem Partition.Same.symm {α : Type} {p : Partition α} {x y : α} (h : p.Same x y) : p.Same y x := by
  rcases h with h | ⟨c, a, b⟩
  · exact .inl h.symm
  · exact .inr ⟨c, b, a⟩

theorem combineFold_ok {I : Type} {e : EmpiricalConstraints} (h : e.WF) :
    ∀ {blocks : List (BasicBlock I)} {off : ℕ} {p : Partition BlockCell} {r},
    (∀ b ∈ blocks, CellsInBlock e b) → p.WF → (∀ x ∈ p.elements, x.1 < off) →
    CombineFold e p (indexedStartPcs off blocks) r →
    ∃ s, r = .ok s ∧ s.WF ∧ ∀ u v, s.Same u v ↔ p.Same u v ∨ superBlockEquates e off blocks u v
  | [], off, p, r, _, hp, _, hr => by
    rw [indexedStartPcs] at hr
    cases hr
    exact ⟨p, rfl, hp, by simp [superBlockEquates]⟩
  | b :: t, off, p, r, hc, hp, hoff, hr => by
    rw [indexedStartPcs] at hr
    have hb := hc b (by simp)
    have hin : ∀ {s : Partition BlockCell}, s.WF → (∀ u v, s.Same u v ↔ u = v ∨
        ∃ u' v', u = (off + u'.1, u'.2) ∧ v = (off + v'.1, v'.2) ∧ u' ≠ v' ∧
          e.Equates b.startPc u' v') → ∀ x ∈ s.elements, off ≤ x.1 ∧
            x.1 < off + b.instructions.length := by
      intro s hs h2 x hx
      obtain ⟨y, hne, hxy⟩ := element_same hs hx
      obtain ⟨u', v', rfl, -, hne', he⟩ := ((h2 x y).1 hxy).resolve_left hne
      have := hb u' v' hne' he
      simp only
      omega
    cases hr with
    | @cons _ _ _ q p' _ h1 h2 h3 =>
      obtain ⟨q', e1, hq, hqs⟩ := shiftedClasses_ok h h1
      cases e1
      have hqin := hin hq hqs
      obtain ⟨s, e2, hs, hss⟩ := (combine_ok hp hq h2).2 (by
        rintro ⟨x, hx1, hx2⟩
        have := hoff x hx1
        have := (hqin x hx2).1
        omega)
      cases e2
      obtain ⟨s', e3, hs', hss'⟩ := combineFold_ok h (fun c hc' => hc c (by simp [hc'])) hs (by
        intro x hx
        obtain ⟨y, hne, hxy⟩ := element_same hs hx
        rcases (hss x y).1 hxy with hxy | hxy
        · have := hoff x (same_elements hxy hne).1
          omega
        · exact (hqin x (same_elements hxy hne).1).2) h3
      refine ⟨s', e3, hs', fun u v => ?_⟩
      rw [hss', hss, hqs, superBlockEquates, or_assoc]
      constructor
      · rintro (h | (h | h) | h)
        · exact .inl h
        · exact .inl (.inl h)
        · exact .inr (.inl h)
        · exact .inr (.inr h)
      · rintro (h | h | h)
        · exact .inl h
        · exact .inr (.inl (.inr h))
        · exact .inr (.inr h)
    | panicMap h1 =>
      obtain ⟨q', e1, -⟩ := shiftedClasses_ok h h1
      cases e1
    | panicCombine h1 h2 =>
      obtain ⟨q', e1, hq, hqs⟩ := shiftedClasses_ok h h1
      cases e1
      have hqin := hin hq hqs
      obtain ⟨s, e2, -⟩ := (combine_ok hp hq h2).2 (by
        rintro ⟨x, hx1, hx2⟩
        have := hoff x hx1
        have := (hqin x hx2).1
        omega)
      cases e2

theorem shiftedClasses_exists (e : EmpiricalConstraints) (x : ℕ × ℕ) : ∃ r, e.ShiftedClasses x r :=
  ⟨_, (e.blockClasses x.2).classOf, .refl _, rfl⟩

theorem combineFold_exists (e : EmpiricalConstraints) : ∀ (l : List (ℕ × ℕ)) (p : Partition BlockCell),
    ∃ r, CombineFold e p l r
  | [], p => ⟨_, .nil⟩
  | x :: t, p => by
    obtain ⟨r, hr⟩ := shiftedClasses_exists e x
    cases r with
    | error s => exact ⟨_, .panicMap hr⟩
    | ok q =>
      obtain ⟨r', hr'⟩ : ∃ r', p.Combine q r' := ⟨_, q.classOf, .refl _, rfl⟩
      cases r' with
      | error s => exact ⟨_, .panicCombine hr hr'⟩
      | ok p' =>
        obtain ⟨r'', hr''⟩ := combineFold_exists e t p'
        exact ⟨r'', .cons hr hr' hr''⟩

theorem superBlockClasses_exists (e : EmpiricalConstraints) (l : List (ℕ × ℕ)) :
    ∃ r, SuperBlockClasses e l r := by
  cases l with
  | nil => exact ⟨_, .empty⟩
  | cons x t =>
    obtain ⟨r, hr⟩ := shiftedClasses_exists e x
    cases r with
    | error s => exact ⟨_, .panic hr⟩
    | ok q =>
      obtain ⟨r', hr'⟩ := combineFold_exists e t q
      exact ⟨r', .cons hr hr'⟩

theorem superBlockClasses_ok {I : Type} {e : EmpiricalConstraints} (h : e.WF)
    {blocks : List (BasicBlock I)} (hne : blocks ≠ []) (hc : ∀ b ∈ blocks, CellsInBlock e b) {r}
    (hr : SuperBlockClasses e (indexedStartPcs 0 blocks) r) :
    ∃ s, r = .ok s ∧ s.WF ∧ ∀ u v, s.Same u v ↔ u = v ∨ superBlockEquates e 0 blocks u v := by
  cases blocks with
  | nil => exact absurd rfl hne
  | cons b t =>
    rw [indexedStartPcs] at hr
    cases hr with
    | cons h1 h2 =>
      obtain ⟨q, e1, hq, hqs⟩ := shiftedClasses_ok h h1
      cases e1
      obtain ⟨s, e2, hs, hss⟩ := combineFold_ok h (fun c hc' => hc c (by simp [hc'])) hq (by
        intro x hx
        obtain ⟨y, hne, hxy⟩ := element_same hq hx
        obtain ⟨u', v', rfl, -, hne', he⟩ := ((hqs x y).1 hxy).resolve_left hne
        have := hc b (by simp) u' v' hne' he
        simp only
        omega) h2
      refine ⟨s, e2, hs, fun u v => ?_⟩
      rw [hss, hqs, superBlockEquates, or_assoc]
    | panic h1 =>
      obtain ⟨q, e1, -⟩ := shiftedClasses_ok h h1
      cases e1

theorem lookup_enum {β : Type} (l : List β) (n k : ℕ) :
    ((l.zipIdx n).map fun x => (x.2, x.1)).lookup k = if n ≤ k then l[k - n]? else none := by
  induction l generalizing n with
  | nil => simp
  | cons a t ih =>
    rw [List.zipIdx_cons, List.map_cons, List.lookup_cons, ih]
    by_cases h : k = n
    · subst h
      simp
    · rw [beq_false_of_ne h]
      by_cases h2 : n ≤ k
      · rw [if_pos (by omega), if_pos h2]
        obtain ⟨j, rfl⟩ : ∃ j, k = n + 1 + j := ⟨k - (n + 1), by omega⟩
        have e1 : n + 1 + j - (n + 1) = j := by omega
        have e2 : n + 1 + j - n = j + 1 := by omega
        rw [e1, e2, List.getElem?_cons_succ]
      · rw [if_neg (by omega), if_neg h2]

theorem blockRanges_lookup (m : List (ℕ × List (ℕ × ℕ))) (pc : ℕ) : ∀ (pcs : List ℕ) (acc),
    (blockRanges m pcs acc).lookup pc =
      if pc ∈ pcs.map pcU32 ∧ (m.lookup pc).isSome then
        (m.lookup pc).map fun rs => rs.zipIdx.map fun x => (x.2, x.1)
      else acc.lookup pc
  | [], acc => by simp [blockRanges]
  | p :: t, acc => by
    rw [blockRanges]
    cases hl : m.lookup (pcU32 p) with
    | none =>
      simp only
      rw [blockRanges_lookup m pc t]
      by_cases he : pc = pcU32 p
      · subst he
        simp [hl]
      · simp only [List.map_cons, List.mem_cons, he, false_or]
    | some rs =>
      simp only
      rw [blockRanges_lookup m pc t, lookup_insert]
      by_cases he : pc = pcU32 p
      · subst he
        simp [hl]
      · simp only [List.map_cons, List.mem_cons, he, false_or, if_false]

theorem blockRanges_keys (m : List (ℕ × List (ℕ × ℕ))) : ∀ (pcs : List ℕ) (acc), MapKeys acc →
    MapKeys (blockRanges m pcs acc)
  | [], acc, h => h
  | p :: t, acc, h => by
    rw [blockRanges]
    cases m.lookup (pcU32 p) with
    | none => exact blockRanges_keys m t acc h
    | some rs => exact blockRanges_keys m t _ (upsert_nodup h)

/-! ## Filtering -/

theorem lookup_map_snd {K V W : Type} [DecidableEq K] (f : K → V → W) (k : K) : ∀ m : List (K × V),
    (m.map fun x => (x.1, f x.1 x.2)).lookup k = (m.lookup k).map (f k)
  | [] => rfl
  | (k₀, v) :: t => by
    rw [List.map_cons, List.lookup_cons, List.lookup_cons, lookup_map_snd f k t]
    by_cases h : k = k₀
    · subst h
      simp
    · rw [beq_false_of_ne h]

theorem filterRanges_lookup (indices : List ℕ) (pred : BlockCell → Bool) (k : ℕ) :
    ∀ (l : List (ℕ × ℕ)) (n : ℕ),
    ((((l.zipIdx n).map fun x => (x.2, x.1)).zipIdx n).filterMap fun x =>
        if indices.all fun idx => pred (idx, x.2) then some x.1 else none).lookup k =
      if (indices.all fun idx => pred (idx, k)) then
        ((l.zipIdx n).map fun x => (x.2, x.1)).lookup k else none
  | [], n => by simp
  | a :: t, n => by
    rw [List.zipIdx_cons, List.map_cons, List.zipIdx_cons, List.filterMap_cons]
    simp only
    by_cases hn : (indices.all fun idx => pred (idx, n)) = true
    · rw [if_pos hn, List.lookup_cons, filterRanges_lookup indices pred k t (n + 1), List.lookup_cons]
      by_cases hk : k = n
      · subst hk
        simp only [beq_self_eq_true, if_pos hn]
      · rw [beq_false_of_ne hk]
    · rw [if_neg hn, filterRanges_lookup indices pred k t (n + 1), List.lookup_cons]
      by_cases hk : k = n
      · subst hk
        rw [if_neg hn, if_neg hn]
      · rw [beq_false_of_ne hk]

theorem mem_pcInstructionIndices {pcs : List ℕ} {pc i : ℕ} :
    i ∈ pcInstructionIndices pcs pc ↔ pcs[i]? = some pc := by
  simp only [pcInstructionIndices, List.mem_map, List.mem_filter, decide_eq_true_eq, Prod.exists,
    List.mem_zipIdx_iff_getElem?]
  constructor
  · rintro ⟨a, b, ⟨h1, h2⟩, h3⟩
    subst h2 h3
    exact h1
  · intro h
    exact ⟨pc, i, ⟨h, rfl⟩, rfl⟩

theorem filtered_flatten {p : BlockCell → Bool} {classes : List (List BlockCell)}
    (h : classes.flatten.Nodup) :
    ((classes.map fun c => c.filter p).filter fun c => 1 < c.length).flatten.Nodup := by
  have h1 : (classes.map fun c => c.filter p).flatten.Nodup := by
    rw [← List.filter_flatten]
    exact h.sublist List.filter_sublist
  exact h1.sublist List.filter_sublist.flatten

/-! ## Generated constraints -/

section
variable {R F : Type} [NatCast F]

theorem getReference_ok {refs : BlockCell → Option R} {cell : BlockCell} {r : R}
    (h : refs cell = some r) : getReference refs cell = .ok r := by
  rw [getReference, h]

theorem columnConstraints_spec (refs : BlockCell → Option R) (idx : ℕ) :
    ∀ l : List (ℕ × (ℕ × ℕ)),
    ((∃ c v, (c, (v, v)) ∈ l ∧ refs (idx, c) = none) → columnConstraints refs idx l = .error .panic) ∧
    ((∀ c v, (c, (v, v)) ∈ l → (refs (idx, c)).isSome) → ∃ cs, columnConstraints refs idx l = .ok cs ∧
      ∀ k, k ∈ cs ↔ ∃ c v r, (c, (v, v)) ∈ l ∧ refs (idx, c) = some r ∧ k = ⟨r, .inr v⟩)
  | [] => by simp [columnConstraints]
  | (col, (mn, mx)) :: t => by
    obtain ⟨ih1, ih2⟩ := columnConstraints_spec refs idx t
    rw [columnConstraints]
    by_cases h : mn = mx
    · subst h
      rw [if_pos rfl]
      constructor
      · rintro ⟨c, v, hm, hr⟩
        cases hc : refs (idx, col) with
        | none => rw [getReference, hc]; rfl
        | some r =>
          rw [getReference_ok hc]
          rcases List.mem_cons.1 hm with he | hm
          · cases he
            rw [hc] at hr
            cases hr
          · have := ih1 ⟨c, v, hm, hr⟩
            change (do
              let rest ← columnConstraints refs idx t
              pure (_ :: rest)) = _
            rw [this]
            rfl
      · intro hall
        obtain ⟨r, hr⟩ := Option.isSome_iff_exists.1 (hall col mn (by simp))
        obtain ⟨cs, e, hcs⟩ := ih2 fun c v hm => hall c v (by simp [hm])
        refine ⟨⟨r, .inr mn⟩ :: cs, by rw [getReference_ok hr, e]; rfl, fun k => ?_⟩
        rw [List.mem_cons, hcs]
        constructor
        · rintro (rfl | ⟨c, v, r', h1, h2, h3⟩)
          · exact ⟨col, mn, r, by simp, hr, rfl⟩
          · exact ⟨c, v, r', by simp [h1], h2, h3⟩
        · rintro ⟨c, v, r', h1, h2, h3⟩
          rcases List.mem_cons.1 h1 with he | h1
          · cases he
            rw [hr] at h2
            cases h2
            exact .inl h3
          · exact .inr ⟨c, v, r', h1, h2, h3⟩
    · rw [if_neg h]
      have hm : ∀ c v, (c, (v, v)) ∈ (col, (mn, mx)) :: t ↔ (c, (v, v)) ∈ t := by
        intro c v
        rw [List.mem_cons]
        constructor
        · rintro (he | h')
          · cases he
            exact absurd rfl h
          · exact h'
        · exact .inr
      simp only [hm]
      exact ⟨ih1, ih2⟩

theorem rangeConstraints_spec (refs : BlockCell → Option R)
    (ranges : List (ℕ × List (ℕ × (ℕ × ℕ)))) : ∀ (pcs : List ℕ) (idx : ℕ),
    ((∃ i pc l c v, pcs[i]? = some pc ∧ ranges.lookup (pcU32 pc) = some l ∧ (c, (v, v)) ∈ l ∧
      refs (idx + i, c) = none) → rangeConstraints refs ranges idx pcs = .error .panic) ∧
    ((∀ i pc l c v, pcs[i]? = some pc → ranges.lookup (pcU32 pc) = some l → (c, (v, v)) ∈ l →
      (refs (idx + i, c)).isSome) → ∃ cs, rangeConstraints refs ranges idx pcs = .ok cs ∧
      ∀ k, k ∈ cs ↔ ∃ i pc l c v r, pcs[i]? = some pc ∧ ranges.lookup (pcU32 pc) = some l ∧
        (c, (v, v)) ∈ l ∧ refs (idx + i, c) = some r ∧ k = ⟨r, .inr v⟩)
  | [], idx => by simp [rangeConstraints]
  | pc :: t, idx => by
    obtain ⟨ih1, ih2⟩ := rangeConstraints_spec refs ranges t (idx + 1)
    have hsh : ∀ i, idx + 1 + i = idx + (i + 1) := by omega
    simp only [hsh] at ih1 ih2
    rw [rangeConstraints]
    cases hl : ranges.lookup (pcU32 pc) with
    | none =>
      simp only
      constructor
      · rintro ⟨i, pc', l, c, v, h1, h2, h3, h4⟩
        cases i with
        | zero =>
          cases h1
          rw [hl] at h2
          cases h2
        | succ i => exact ih1 ⟨i, pc', l, c, v, h1, h2, h3, h4⟩
      · intro hall
        obtain ⟨cs, e, hcs⟩ := ih2 fun i pc' l c v h1 h2 h3 => hall (i + 1) pc' l c v h1 h2 h3
        refine ⟨cs, e, fun k => ?_⟩
        rw [hcs]
        constructor
        · rintro ⟨i, pc', l, c, v, r, h1, h2, h3, h4, h5⟩
          exact ⟨i + 1, pc', l, c, v, r, h1, h2, h3, h4, h5⟩
        · rintro ⟨i, pc', l, c, v, r, h1, h2, h3, h4, h5⟩
          cases i with
          | zero =>
            cases h1
            rw [hl] at h2
            cases h2
          | succ i => exact ⟨i, pc', l, c, v, r, h1, h2, h3, h4, h5⟩
    | some l =>
      simp only
      obtain ⟨ch1, ch2⟩ := columnConstraints_spec refs idx l
      constructor
      · rintro ⟨i, pc', l', c, v, h1, h2, h3, h4⟩
        by_cases hhere : ∃ c v, (c, (v, v)) ∈ l ∧ refs (idx, c) = none
        · rw [ch1 hhere]
          rfl
        · obtain ⟨cs, e, -⟩ := ch2 (by
            intro c v hm
            by_contra hn
            exact hhere ⟨c, v, hm, by simpa using hn⟩)
          cases i with
          | zero =>
            cases h1
            rw [hl] at h2
            cases h2
            exact absurd ⟨c, v, h3, h4⟩ hhere
          | succ i =>
            rw [e, ih1 ⟨i, pc', l', c, v, h1, h2, h3, h4⟩]
            rfl
      · intro hall
        obtain ⟨cs, e, hcs⟩ := ch2 fun c v hm => hall 0 pc l c v rfl hl hm
        obtain ⟨cs', e', hcs'⟩ := ih2 fun i pc' l c v h1 h2 h3 => hall (i + 1) pc' l c v h1 h2 h3
        refine ⟨cs ++ cs', by rw [e, e']; rfl, fun k => ?_⟩
        rw [List.mem_append, hcs, hcs']
        constructor
        · rintro (⟨c, v, r, h1, h2, h3⟩ | ⟨i, pc', l, c, v, r, h1, h2, h3, h4, h5⟩)
          · exact ⟨0, pc, l, c, v, r, rfl, hl, h1, h2, h3⟩
          · exact ⟨i + 1, pc', l, c, v, r, h1, h2, h3, h4, h5⟩
        · rintro ⟨i, pc', l', c, v, r, h1, h2, h3, h4, h5⟩
          cases i with
          | zero =>
            cases h1
            rw [hl] at h2
            cases h2
            exact .inl ⟨c, v, r, h3, h4, h5⟩
          | succ i => exact .inr ⟨i, pc', l', c, v, r, h1, h2, h3, h4, h5⟩

theorem othersConstraints_spec (refs : BlockCell → Option R) (first : R) : ∀ l : List BlockCell,
    ((∃ c ∈ l, refs c = none) → othersConstraints refs first l = .error .panic) ∧
    ((∀ c ∈ l, (refs c).isSome) → ∃ cs, othersConstraints refs first l = .ok cs ∧
      ∀ k, k ∈ cs ↔ ∃ c r, c ∈ l ∧ refs c = some r ∧ k = ⟨first, .inl r⟩)
  | [] => by simp [othersConstraints]
  | c :: t => by
    obtain ⟨ih1, ih2⟩ := othersConstraints_spec refs first t
    rw [othersConstraints]
    constructor
    · rintro ⟨d, hd, hr⟩
      cases hc : refs c with
      | none => rw [getReference, hc]; rfl
      | some r =>
        rw [getReference_ok hc]
        rcases List.mem_cons.1 hd with rfl | hd
        · rw [hc] at hr
          cases hr
        · have := ih1 ⟨d, hd, hr⟩
          change (do
            let rest ← othersConstraints refs first t
            pure (_ :: rest)) = _
          rw [this]
          rfl
    · intro hall
      obtain ⟨r, hr⟩ := Option.isSome_iff_exists.1 (hall c (by simp))
      obtain ⟨cs, e, hcs⟩ := ih2 fun d hd => hall d (by simp [hd])
      refine ⟨⟨first, .inl r⟩ :: cs, by rw [getReference_ok hr, e]; rfl, fun k => ?_⟩
      rw [List.mem_cons, hcs]
      constructor
      · rintro (rfl | ⟨d, r', h1, h2, h3⟩)
        · exact ⟨c, r, by simp, hr, rfl⟩
        · exact ⟨d, r', by simp [h1], h2, h3⟩
      · rintro ⟨d, r', h1, h2, h3⟩
        rcases List.mem_cons.1 h1 with rfl | h1
        · rw [hr] at h2
          cases h2
          exact .inl h3
        · exact .inr ⟨d, r', h1, h2, h3⟩

theorem equivalenceConstraints_spec (refs : BlockCell → Option R) : ∀ l : List (List BlockCell),
    (∀ cls ∈ l, cls ≠ []) →
    ((∃ cls ∈ l, ∃ c ∈ cls, refs c = none) → equivalenceConstraints refs l = .error .panic) ∧
    ((∀ cls ∈ l, ∀ c ∈ cls, (refs c).isSome) → ∃ cs, equivalenceConstraints refs l = .ok cs ∧
      ∀ σ : R → F, (∀ k ∈ cs, k.Holds σ) ↔ ∀ cls ∈ l, ∀ x ∈ cls, ∀ y ∈ cls, ∀ r s,
        refs x = some r → refs y = some s → σ r = σ s)
  | [], _ => by simp [equivalenceConstraints]
  | [] :: t, hne => absurd rfl (hne [] (by simp))
  | (first :: others) :: t, hne => by
    obtain ⟨ih1, ih2⟩ := equivalenceConstraints_spec refs t fun c hc => hne c (by simp [hc])
    rw [equivalenceConstraints]
    constructor
    · rintro ⟨cls, hcls, c, hc, hr⟩
      cases hf : refs first with
      | none => rw [getReference, hf]; rfl
      | some r =>
        rw [getReference_ok hf]
        obtain ⟨o1, o2⟩ := othersConstraints_spec refs r others
        change (do
          let here ← othersConstraints refs r others
          let rest ← equivalenceConstraints refs t
          pure (here ++ rest)) = _
        by_cases ho : ∃ c ∈ others, refs c = none
        · rw [o1 ho]
          rfl
        · obtain ⟨cs, e, -⟩ := o2 (by
            intro d hd
            by_contra hn
            exact ho ⟨d, hd, by simpa using hn⟩)
          rcases List.mem_cons.1 hcls with rfl | hcls
          · rcases List.mem_cons.1 hc with rfl | hc
            · rw [hf] at hr
              cases hr
            · exact absurd ⟨c, hc, hr⟩ ho
          · rw [e, ih1 ⟨cls, hcls, c, hc, hr⟩]
            rfl
    · intro hall
      obtain ⟨r, hr⟩ := Option.isSome_iff_exists.1
        (hall (first :: others) (by simp) first (by simp))
      obtain ⟨cs, e, hcs⟩ := (othersConstraints_spec refs r others).2 fun d hd =>
        hall (first :: others) (by simp) d (by simp [hd])
      obtain ⟨cs', e', hcs'⟩ := ih2 fun cls hc d hd => hall cls (by simp [hc]) d hd
      refine ⟨cs ++ cs', ?_, fun σ => ?_⟩
      · rw [getReference_ok hr, e']
        change (do
          let here ← othersConstraints refs r others
          let rest ← Except.ok cs'
          pure (here ++ rest)) = _
        rw [e]
        rfl
      have hhere : (∀ k ∈ cs, k.Holds σ) ↔ ∀ x ∈ first :: others, ∀ y ∈ first :: others, ∀ r s,
          refs x = some r → refs y = some s → σ r = σ s := by
        constructor
        · intro h
          have key : ∀ x ∈ first :: others, ∀ s, refs x = some s → σ r = σ s := by
            intro x hx s hs
            rcases List.mem_cons.1 hx with rfl | hx
            · rw [hr] at hs
              cases hs
              rfl
            · exact h ⟨r, .inl s⟩ ((hcs _).2 ⟨x, s, hx, hs, rfl⟩)
          intro x hx y hy a b ha hb
          rw [← key x hx a ha, ← key y hy b hb]
        · intro h k hk
          obtain ⟨c, s, hc, hs, rfl⟩ := (hcs k).1 hk
          exact h first (by simp) c (by simp [hc]) r s hr hs
      have hsplit : (∀ k ∈ cs ++ cs', k.Holds σ) ↔ (∀ k ∈ cs, k.Holds σ) ∧ ∀ k ∈ cs', k.Holds σ := by
        simp only [List.mem_append, or_imp, forall_and]
      rw [hsplit, hhere, hcs']
      constructor
      · rintro ⟨h1, h2⟩ cls hc
        rcases List.mem_cons.1 hc with rfl | hc
        · exact h1
        · exact h2 cls hc
      · intro h
        exact ⟨h _ (by simp), fun cls hc => h cls (by simp [hc])⟩

/-! ## References of cells -/

theorem foldl_insert_lookup (i : ℕ) (id : ℕ) : ∀ (l : List ℕ) (n : ℕ) (m : List (ℕ × BlockCell)),
    l.Nodup → ((l.zipIdx n).foldl (fun m x => pcMapInsert x.1 (i, x.2) m) m).lookup id =
      if id ∈ l then some (i, n + l.idxOf id) else m.lookup id
  | [], n, m, _ => by simp
  | a :: t, n, m, h => by
    rw [List.nodup_cons] at h
    rw [List.zipIdx_cons, List.foldl_cons, foldl_insert_lookup i id t (n + 1) _ h.2, lookup_insert]
    by_cases he : id = a
    · subst he
      simp [h.1]
    · by_cases ht : id ∈ t
      · rw [if_pos ht, if_pos (by simp [ht]), List.idxOf_cons_ne t (Ne.symm he)]
        simp only [Option.some.injEq, Prod.mk.injEq, true_and]
        omega
      · rw [if_neg ht, if_neg he, if_neg (by simp [ht, he])]

theorem idToCell_lookup (id : ℕ) : ∀ (subs : List (List ℕ)) (i : ℕ) (m : List (ℕ × BlockCell)),
    subs.flatten.Nodup → (∀ x ∈ subs.flatten, m.lookup x = none) → ∀ cell,
    (idToCell i subs m).lookup id = some cell ↔ m.lookup id = some cell ∨
      ∃ j l, subs[j]? = some l ∧ l[cell.2]? = some id ∧ cell.1 = i + j
  | [], i, m, _, _, cell => by simp [idToCell]
  | l :: t, i, m, hn, hm, cell => by
    rw [List.flatten_cons, List.nodup_append] at hn
    obtain ⟨hl, ht, hd⟩ := hn
    have hlook : ∀ x, ((l.zipIdx).foldl (fun m x => pcMapInsert x.1 (i, x.2) m) m).lookup x =
        if x ∈ l then some (i, l.idxOf x) else m.lookup x := by
      intro x
      rw [foldl_insert_lookup i x l 0 m hl, Nat.zero_add]
    rw [idToCell, idToCell_lookup id t (i + 1) _ ht, hlook]
    · have e : ∀ j, i + 1 + j = i + (j + 1) := by omega
      constructor
      · rintro (h | ⟨j, l', h1, h2, h3⟩)
        · by_cases hx : id ∈ l
          · rw [if_pos hx] at h
            cases h
            refine .inr ⟨0, l, rfl, ?_, rfl⟩
            exact List.getElem?_idxOf hx
          · rw [if_neg hx] at h
            exact .inl h
        · exact .inr ⟨j + 1, l', h1, h2, by omega⟩
      · rintro (h | ⟨j, l', h1, h2, h3⟩)
        · refine .inl ?_
          have hx : id ∉ l := by
            intro hx
            rw [hm id (by simp [hx])] at h
            cases h
          rw [if_neg hx]
          exact h
        · cases j with
          | zero =>
            cases h1
            have hx : id ∈ l := List.mem_of_getElem? h2
            refine .inl ?_
            rw [if_pos hx]
            obtain ⟨c1, c2⟩ := cell
            simp only at h2 h3
            obtain ⟨hlt, he⟩ := List.getElem?_eq_some_iff.1 h2
            subst he
            rw [List.Nodup.idxOf_getElem hl, h3]
            rfl
          | succ j => exact .inr ⟨j, l', h1, h2, by omega⟩
    · intro x hx
      rw [hlook, if_neg, hm x (by simp only [List.flatten_cons, List.mem_append]; exact .inr hx)]
      intro hx'
      exact hd x hx' x hx rfl

theorem cellToReference_spec {id : R → ℕ} {cells : List (ℕ × BlockCell)}
    (hinj : ∀ x y c, cells.lookup x = some c → cells.lookup y = some c → x = y) :
    ∀ (columns : List R) (m : List (BlockCell × R)), (columns.map id).Nodup →
    (∀ r ∈ columns, ∀ c, cells.lookup (id r) = some c → m.lookup c = none) →
    ((∃ r ∈ columns, cells.lookup (id r) = none) → cellToReference id cells columns m = .error .panic) ∧
    ((∀ r ∈ columns, (cells.lookup (id r)).isSome) → ∃ s, cellToReference id cells columns m = .ok s ∧
      ∀ c r, s.lookup c = some r ↔ m.lookup c = some r ∨ (r ∈ columns ∧ cells.lookup (id r) = some c))
  | [], m, _, _ => by simp [cellToReference]
  | r :: t, m, hn, hm => by
    rw [List.map_cons, List.nodup_cons] at hn
    rw [cellToReference]
    cases hl : cells.lookup (id r) with
    | none =>
      refine ⟨fun _ => rfl, fun h => ?_⟩
      have := h r (by simp)
      rw [hl] at this
      cases this
    | some cell =>
      simp only
      obtain ⟨ih1, ih2⟩ := cellToReference_spec hinj t (pcMapInsert cell r m) hn.2 (by
        intro r' hr' c hc
        rw [lookup_insert]
        by_cases he : c = cell
        · subst he
          exact absurd (List.mem_map.2 ⟨r', hr', hinj _ _ _ hc hl⟩) hn.1
        · rw [if_neg he]
          exact hm r' (by simp [hr']) c hc)
      constructor
      · rintro ⟨r', hr', h⟩
        rcases List.mem_cons.1 hr' with rfl | hr'
        · rw [hl] at h
          cases h
        · exact ih1 ⟨r', hr', h⟩
      · intro h
        obtain ⟨s, e, hs⟩ := ih2 fun r' hr' => h r' (by simp [hr'])
        refine ⟨s, e, fun c r' => ?_⟩
        rw [hs, lookup_insert]
        by_cases he : c = cell
        · subst he
          rw [if_pos rfl, hm r (by simp) c hl]
          constructor
          · rintro (h | ⟨h1, h2⟩)
            · cases h
              exact .inr ⟨by simp, hl⟩
            · exact .inr ⟨by simp [h1], h2⟩
          · rintro (h | ⟨h1, h2⟩)
            · cases h
            · rcases List.mem_cons.1 h1 with rfl | h1
              · exact .inl rfl
              · exact .inr ⟨h1, h2⟩
        · rw [if_neg he]
          refine or_congr Iff.rfl ?_
          constructor
          · rintro ⟨h1, h2⟩
            exact ⟨by simp [h1], h2⟩
          · rintro ⟨h1, h2⟩
            rcases List.mem_cons.1 h1 with rfl | h1
            · rw [hl] at h2
              cases h2
              exact absurd rfl he
            · exact ⟨h1, h2⟩

end

end Verif
