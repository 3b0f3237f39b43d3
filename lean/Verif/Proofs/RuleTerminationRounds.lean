import Verif.Spec.RuleTermination
import Verif.Proofs.RuleTermination
import Verif.Proofs.ItemDB

/-! Helper lemmas for the termination of the rule driver: the measure and how a round changes it. -/

set_option linter.unusedSectionVars false

namespace Verif

open RangeConstraint GExpr

variable {p : ℕ} {V : Type} [LinearOrder V]

/-! ### The size of a system -/

/-- Twice the number of constraints plus the number of variables. -/
def ConstraintSystem.weight (s : ConstraintSystem p V) : ℕ :=
  2 * s.algebraic.length + s.vars.toFinset.card

theorem mem_csVars {s : ConstraintSystem p V} {v : V} :
    v ∈ s.vars ↔ (∃ e ∈ s.algebraic, v ∈ e.vars) ∨ ∃ b ∈ s.bus, v ∈ busVars b := by
  simp [ConstraintSystem.vars, List.mem_flatMap]

theorem mem_busVars_fields {b : BusInteraction (GExpr p V)} {v : V} :
    v ∈ busVars b ↔ ∃ e ∈ b.fields, v ∈ e.vars := by
  simp [busVars, List.mem_flatMap]

theorem mem_mapExprs_vars {s : ConstraintSystem p V} {f : GExpr p V → GExpr p V} {v : V}
    (h : v ∈ (s.mapExprs f).vars) : ∃ e, (∀ u ∈ e.vars, u ∈ s.vars) ∧ v ∈ (f e).vars := by
  rw [mem_csVars] at h
  simp only [ConstraintSystem.mapExprs, List.mem_map] at h
  rcases h with ⟨_, ⟨e, he, rfl⟩, hv⟩ | ⟨_, ⟨b, hb, rfl⟩, hv⟩
  · exact ⟨e, fun u hu => mem_csVars.2 (Or.inl ⟨e, he, hu⟩), hv⟩
  · rw [mem_busVars_fields, fields_map] at hv
    obtain ⟨e', he', hv⟩ := hv
    obtain ⟨e, he, rfl⟩ := List.mem_map.1 he'
    exact ⟨e, fun u hu => mem_csVars.2 (Or.inr ⟨b, hb, mem_busVars_fields.2 ⟨e, he, hu⟩⟩), hv⟩

theorem length_mapExprs (s : ConstraintSystem p V) (f : GExpr p V → GExpr p V) :
    (s.mapExprs f).algebraic.length = s.algebraic.length := by
  simp [ConstraintSystem.mapExprs]

theorem weight_substKnown [Fact p.Prime] (s : ConstraintSystem p V) (x : V) (k : ZMod p) :
    (s.mapExprs (substKnown x k)).weight ≤ s.weight ∧
      (x ∈ s.vars → (s.mapExprs (substKnown x k)).weight < s.weight) := by
  have hsub : (s.mapExprs (substKnown x k)).vars.toFinset ⊆ s.vars.toFinset.erase x := by
    intro v hv
    obtain ⟨e, he, hv⟩ := mem_mapExprs_vars (List.mem_toFinset.1 hv)
    obtain ⟨h1, h2⟩ := vars_substKnown x k hv
    exact Finset.mem_erase.2 ⟨h2, List.mem_toFinset.2 (he v h1)⟩
  have hc := Finset.card_le_card hsub
  have he := Finset.card_erase_le (s := s.vars.toFinset) (a := x)
  unfold ConstraintSystem.weight
  rw [length_mapExprs]
  refine ⟨by omega, fun hx => ?_⟩
  have := Finset.card_erase_lt_of_mem (List.mem_toFinset.2 hx)
  omega

theorem weight_substVar [Fact p.Prime] (s : ConstraintSystem p V) (x w : V) :
    (s.mapExprs (subst x (var w))).weight ≤ s.weight ∧
      (x ∈ s.vars → w ∈ s.vars → w ≠ x → (s.mapExprs (subst x (var w))).weight < s.weight) := by
  have hv : ∀ v ∈ (s.mapExprs (subst x (var w))).vars,
      (v ∈ s.vars ∧ v ≠ x) ∨ (v = w ∧ x ∈ s.vars) := by
    intro v hv
    obtain ⟨e, he, hv⟩ := mem_mapExprs_vars hv
    rcases vars_subst x (var w) hv with ⟨h1, h2⟩ | ⟨h1, h2⟩
    · exact Or.inl ⟨he v h1, h2⟩
    · rw [vars_var, List.mem_singleton] at h1
      exact Or.inr ⟨h1, he x h2⟩
  unfold ConstraintSystem.weight
  rw [length_mapExprs]
  by_cases hx : x ∈ s.vars
  · have hsub : (s.mapExprs (subst x (var w))).vars.toFinset ⊆
        insert w (s.vars.toFinset.erase x) := by
      intro v hv'
      rcases hv v (List.mem_toFinset.1 hv') with h | h
      · exact Finset.mem_insert_of_mem (Finset.mem_erase.2 ⟨h.2, List.mem_toFinset.2 h.1⟩)
      · rw [h.1]; exact Finset.mem_insert_self _ _
    have hc := Finset.card_le_card hsub
    have hi := Finset.card_insert_le w (s.vars.toFinset.erase x)
    have he := Finset.card_erase_lt_of_mem (List.mem_toFinset.2 hx)
    refine ⟨by omega, fun _ hw hne => ?_⟩
    have : insert w (s.vars.toFinset.erase x) = s.vars.toFinset.erase x :=
      Finset.insert_eq_of_mem (Finset.mem_erase.2 ⟨hne, List.mem_toFinset.2 hw⟩)
    rw [this] at hc
    omega
  · have hsub : (s.mapExprs (subst x (var w))).vars.toFinset ⊆ s.vars.toFinset := by
      intro v hv'
      rcases hv v (List.mem_toFinset.1 hv') with h | h
      · exact List.mem_toFinset.2 h.1
      · exact absurd h.2 hx
    have hc := Finset.card_le_card hsub
    exact ⟨by omega, fun h => absurd h hx⟩

/-! ### The batch makes the system smaller -/

theorem length_filter_notMem (cs R : List (GExpr p V)) (h : ∀ e ∈ R, e ∈ cs) :
    (cs.filter fun c => c ∉ R).length + R.toFinset.card ≤ cs.length := by
  have h1 := List.length_eq_length_filter_add (l := cs) (fun c => decide (c ∉ R))
  have h2 : R.toFinset.card ≤ (cs.filter fun c => !decide (c ∉ R)).length := by
    refine le_trans (Finset.card_le_card ?_) (List.toFinset_card_le _)
    intro e he
    rw [List.mem_toFinset] at he ⊢
    rw [List.mem_filter]
    exact ⟨h e he, by simpa using he⟩
  omega

theorem length_filter_batch (acc : List (ReplacementAction p V)) (cs : List (GExpr p V))
    (h : ∀ r ∈ acc, ∀ e ∈ r.replace, e ∈ cs)
    (hd : acc.Pairwise (fun a b => ∀ e ∈ a.replace, e ∉ b.replace)) :
    (cs.filter fun c => ∀ a ∈ acc, c ∉ a.replace).length +
      (acc.map fun r => r.replace.toFinset.card).sum ≤ cs.length := by
  induction acc generalizing cs with
  | nil => simp
  | cons r acc ih =>
    rw [List.pairwise_cons] at hd
    have h1 := length_filter_notMem cs r.replace (h r (by simp))
    have h2 := ih (cs.filter fun c => c ∉ r.replace) (fun a ha e he =>
      List.mem_filter.2 ⟨h a (by simp [ha]) e he, by
        simpa using fun hm => hd.1 a ha e hm he⟩) hd.2
    rw [List.filter_filter] at h2
    have h3 : (cs.filter fun c => decide (∀ a ∈ r :: acc, c ∉ a.replace)) =
        cs.filter fun c => decide (∀ a ∈ acc, c ∉ a.replace) && decide (c ∉ r.replace) := by
      apply List.filter_congr
      intro c _
      rw [← Bool.decide_and, decide_eq_decide]
      simp [and_comm]
    rw [h3]
    simp only [List.map_cons, List.sum_cons]
    omega

/-- The variable occurs in at most one constraint and in no bus interaction. -/
def ConstraintSystem.OnlyOnce (s : ConstraintSystem p V) (v : V) : Prop :=
  (∃ x, ∀ e ∈ s.algebraic, v ∈ e.vars → e = x) ∧ ∀ b ∈ s.bus, v ∉ busVars b

theorem weight_batch [Fact p.Prime] {inp : RuleInput p V} (s : ConstraintSystem p V)
    (rs : List (ReplacementAction p V)) (bound : Option DegreeBound)
    (hs : ∀ v ∈ inp.single, ∀ e ∈ inp.constraints, v ∈ e.vars → s.OnlyOnce v)
    (hrs : ∀ r ∈ rs, ∃ gone new, r.Shrinks inp gone new) :
    ((batchReplace s rs bound).1 = true → (batchReplace s rs bound).2.weight < s.weight) ∧
    ((batchReplace s rs bound).1 = false → (batchReplace s rs bound).2 = s) := by
  classical
  obtain ⟨acc, h1, h2, h3, h4, h5, h6, -⟩ := batchReplace_spec s rs bound
  constructor
  swap
  · intro hf
    rw [h2, h4 hf]
    simp
  intro ht
  obtain ⟨a0, ha0, -⟩ := h3.1 ht
  rw [h2]
  -- the data of the accepted replacements
  have hch : ∃ gone new : ReplacementAction p V → List V, ∀ r ∈ acc, r.Shrinks inp (gone r) (new r) := by
    refine ⟨fun r => if h : ∃ g n, r.Shrinks inp g n then h.choose else [],
      fun r => if h : ∃ g n, r.Shrinks inp g n then h.choose_spec.choose else [], fun r hr => ?_⟩
    have h := hrs r (h1.subset hr)
    simp only [dif_pos h]
    exact h.choose_spec.choose_spec
  obtain ⟨gone, new, hsh⟩ := hch
  -- a variable that disappears determines the constraint
  have uniq : ∀ r ∈ acc, ∀ v ∈ gone r, ∀ e ∈ s.algebraic, v ∈ e.vars → e ∈ r.replace := by
    intro r hr v hv e he hve
    obtain ⟨hsi, f, hf, hvf, hfc⟩ := (hsh r hr).single v hv
    obtain ⟨⟨x, hx⟩, -⟩ := hs v hsi f hfc hvf
    rw [hx e he hve, ← hx f ((h5 r hr).2 f hf) hvf]
    exact hf
  have hsym : ∀ a ∈ acc, ∀ b ∈ acc, a ≠ b → ∀ e ∈ a.replace, e ∉ b.replace := by
    have : Std.Symm fun a b : ReplacementAction p V => ∀ e ∈ a.replace, e ∉ b.replace :=
      ⟨fun a b h e he hm => h e hm he⟩
    exact fun a ha b hb hne => List.Pairwise.forall h6 ha hb hne
  have hdis : acc.Pairwise fun a b => List.Disjoint (gone a) (gone b) := by
    refine h6.imp_of_mem ?_
    intro a b ha hb hab v hva hvb
    obtain ⟨-, f, hf, hvf, -⟩ := (hsh a ha).single v hva
    exact hab f hf (uniq b hb v hvb f ((h5 a ha).2 f hf) hvf)
  have hnd : (acc.flatMap gone).Nodup :=
    List.nodup_flatMap.2 ⟨fun r hr => (hsh r hr).nodup, hdis⟩
  have hG : (acc.flatMap gone).toFinset ⊆ s.vars.toFinset := by
    intro v hv
    rw [List.mem_toFinset, List.mem_flatMap] at hv
    obtain ⟨r, hr, hv⟩ := hv
    obtain ⟨-, f, hf, hvf, -⟩ := (hsh r hr).single v hv
    exact List.mem_toFinset.2 (mem_csVars.2 (Or.inl ⟨f, (h5 r hr).2 f hf, hvf⟩))
  have hsub : (ConstraintSystem.vars (⟨(s.algebraic.filter fun c => ∀ a ∈ acc, c ∉ a.replace) ++
      acc.flatMap (·.replaceBy), s.bus, s.derived⟩ : ConstraintSystem p V)).toFinset ⊆
      (s.vars.toFinset \ (acc.flatMap gone).toFinset) ∪ (acc.flatMap new).toFinset := by
    intro v hv
    rw [List.mem_toFinset, mem_csVars] at hv
    rw [Finset.mem_union, Finset.mem_sdiff, List.mem_toFinset, List.mem_toFinset,
      List.mem_toFinset]
    rcases hv with ⟨e, he, hv⟩ | ⟨b, hb, hv⟩
    · rcases List.mem_append.1 he with he | he
      · rw [List.mem_filter, decide_eq_true_eq] at he
        refine Or.inl ⟨mem_csVars.2 (Or.inl ⟨e, he.1, hv⟩), fun hg => ?_⟩
        obtain ⟨r, hr, hg⟩ := List.mem_flatMap.1 hg
        exact he.2 r hr (uniq r hr v hg e he.1 hv)
      · obtain ⟨r, hr, he⟩ := List.mem_flatMap.1 he
        rcases (hsh r hr).vars e he v hv with hn | ⟨hn, f, hf, hvf⟩
        · exact Or.inr (List.mem_flatMap.2 ⟨r, hr, hn⟩)
        · have hfs := (h5 r hr).2 f hf
          refine Or.inl ⟨mem_csVars.2 (Or.inl ⟨f, hfs, hvf⟩), fun hg => ?_⟩
          obtain ⟨r', hr', hg⟩ := List.mem_flatMap.1 hg
          by_cases hrr : r = r'
          · exact hn (hrr ▸ hg)
          · exact hsym r hr r' hr' hrr f hf (uniq r' hr' v hg f hfs hvf)
    · refine Or.inl ⟨mem_csVars.2 (Or.inr ⟨b, hb, hv⟩), fun hg => ?_⟩
      obtain ⟨r, hr, hg⟩ := List.mem_flatMap.1 hg
      obtain ⟨hsi, f, -, hvf, hfc⟩ := (hsh r hr).single v hg
      exact (hs v hsi f hfc hvf).2 b hb hv
  have hc := Finset.card_le_card hsub
  have hu := Finset.card_union_le (s.vars.toFinset \ (acc.flatMap gone).toFinset)
    (acc.flatMap new).toFinset
  have hd := Finset.card_sdiff_add_card_eq_card hG
  rw [List.toFinset_card_of_nodup hnd] at hd
  have hn := List.toFinset_card_le (acc.flatMap new)
  have hl := length_filter_batch acc s.algebraic (fun r hr => (h5 r hr).2) h6
  have hsum : 2 * (acc.flatMap (·.replaceBy)).length + (acc.flatMap new).length <
      2 * (acc.map fun r => r.replace.toFinset.card).sum + (acc.flatMap gone).length := by
    clear hc hu hd hn hl hsub hG hnd hdis hsym uniq h2 h3 h4 h5 h6 h1
    have weak : ∀ l : List (ReplacementAction p V), (∀ r ∈ l, r.Shrinks inp (gone r) (new r)) →
        2 * (l.flatMap (·.replaceBy)).length + (l.flatMap new).length + l.length ≤
        2 * (l.map fun r => r.replace.toFinset.card).sum + (l.flatMap gone).length := by
      intro l hl
      induction l with
      | nil => simp
      | cons r l ih =>
        have a := (hl r (by simp)).less
        have b := ih fun r hr => hl r (by simp [hr])
        simp only [List.flatMap_cons, List.length_append, List.length_cons, List.map_cons,
          List.sum_cons]
        omega
    have := weak acc hsh
    have hp : 0 < acc.length := List.length_pos_of_mem ha0
    omega
  unfold ConstraintSystem.weight
  rw [List.length_append]
  omega

/-! ### Actions -/

section Actions

variable [Fact p.Prime]

/-- The range constraint the driver knows for a variable. -/
def DriverState.range (st : DriverState p V) (v : V) : RangeConstraint p :=
  (mapGet v st.ranges).getD unconstrained

/-- The rank of a range constraint. -/
def rcRank (r : RangeConstraint p) : ℕ := (r.width + r.mask) * p + r.min.val

theorem rcRank_le {B : ℕ} {r : RangeConstraint p} (h : r.mask ≤ B) :
    rcRank r ≤ (p + B + 1) * p := by
  have h1 := r.width_le
  have h2 : r.min.val < p := ZMod.val_lt _
  unfold rcRank
  have h4 : (r.width + r.mask) * p ≤ (p + B) * p := Nat.mul_le_mul_right _ (by omega)
  rw [Nat.add_mul (p + B), Nat.one_mul]
  omega

theorem rcRank_conjunction {a b : RangeConstraint p}
    (hne : a.conjunction b ≠ a) : rcRank (a.conjunction b) < rcRank a := by
  have hm := conjunction_mask a b
  have hv : (a.conjunction b).min.val < p := ZMod.val_lt _
  have lift : ∀ x y : ℕ, x < y → x * p + (a.conjunction b).min.val < y * p + a.min.val := by
    intro x y hxy
    have : (x + 1) * p ≤ y * p := Nat.mul_le_mul_right _ hxy
    rw [Nat.add_mul, Nat.one_mul] at this
    omega
  unfold rcRank
  rcases conjunction_decreases a b hne with h1 | ⟨h1, h2⟩ | ⟨h1, h2, h3⟩
  · exact lift _ _ (by omega)
  · exact lift _ _ (by omega)
  · rw [h1, h2]; omega

/-- The sum of the ranks of all variables of the system. -/
def DriverState.rank (st : DriverState p V) : ℕ :=
  ∑ v ∈ st.system.vars.toFinset, rcRank (st.range v)

/-- All masks are at most `B`. -/
def DriverState.MaskLe (B : ℕ) (st : DriverState p V) : Prop := ∀ v, (st.range v).mask ≤ B

theorem range_insert {st : DriverState p V} {v u : V} {r : RangeConstraint p} :
    DriverState.range { st with ranges := mapInsert v r st.ranges } u =
      if u = v then r else st.range u := by
  unfold DriverState.range
  rw [mapGet_mapInsert]
  split <;> rfl

theorem maskLe_applyAction {B : ℕ} {st : DriverState p V} (h : st.MaskLe B) (a : RuleAction p V) :
    (applyAction st a).MaskLe B := by
  cases a with
  | updateRange v rc =>
    simp only [applyAction]
    split
    · split
      · exact h
      · intro u
        rw [range_insert]
        split
        · exact le_trans (conjunction_mask _ _) (h v)
        · exact h u
    · exact h
  | substituteByConstant v k => exact h
  | substituteByVariable v w => exact h

/-- What is known about an action that the rules request. -/
def RuleAction.About (S : V → Prop) : RuleAction p V → Prop
  | .updateRange v _ | .substituteByConstant v _ => S v
  | .substituteByVariable v w => S v ∧ S w ∧ w ≠ v

theorem weight_applyAction (st : DriverState p V) (a : RuleAction p V) :
    (applyAction st a).system.weight ≤ st.system.weight := by
  cases a with
  | updateRange v rc =>
    simp only [applyAction]
    split
    · split
      · exact (weight_substKnown _ _ _).1
      · exact le_refl _
    · exact le_refl _
  | substituteByConstant v k => exact (weight_substKnown _ _ _).1
  | substituteByVariable v w => exact (weight_substVar _ _ _).1

theorem rank_insert {st : DriverState p V} {v : V} {r : RangeConstraint p}
    (hv : v ∈ st.system.vars) (h : rcRank r < rcRank (st.range v)) :
    DriverState.rank { st with ranges := mapInsert v r st.ranges } < st.rank := by
  unfold DriverState.rank
  apply Finset.sum_lt_sum
  · intro u hu
    rw [range_insert]
    split
    · rename_i e; subst e
      exact h.le
    · exact le_refl _
  · refine ⟨v, List.mem_toFinset.2 hv, ?_⟩
    rw [range_insert, if_pos rfl]
    exact h

/-- An action makes the system smaller, or it only changes range constraints. -/
theorem applyAction_smaller {st : DriverState p V} {a : RuleAction p V} (ha : a.About (· ∈ st.system.vars)) :
    (applyAction st a).system.weight < st.system.weight ∨
    ((applyAction st a).system = st.system ∧
      (applyAction st a).rank ≤ st.rank ∧
      (actionProgress st a = true → (applyAction st a).rank < st.rank)) := by
  cases a with
  | updateRange v rc =>
    simp only [applyAction, actionProgress]
    by_cases hne : ((mapGet v st.ranges).getD unconstrained).conjunction rc ≠
        (mapGet v st.ranges).getD unconstrained
    · rw [if_pos hne]
      split
      · exact Or.inl ((weight_substKnown _ _ _).2 ha)
      · right
        have hlt := rank_insert (st := st) ha (rcRank_conjunction hne)
        exact ⟨rfl, hlt.le, fun _ => hlt⟩
    · rw [if_neg hne]
      exact Or.inr ⟨rfl, le_refl _, fun h => absurd (by simpa using h) hne⟩
  | substituteByConstant v k => exact Or.inl ((weight_substKnown _ _ _).2 ha)
  | substituteByVariable v w => exact Or.inl ((weight_substVar _ _ _).2 ha.1 ha.2.1 ha.2.2)

theorem weight_foldl (as : List (RuleAction p V)) (st : DriverState p V) :
    (as.foldl applyAction st).system.weight ≤ st.system.weight := by
  induction as generalizing st with
  | nil => exact le_refl _
  | cons a as ih => exact le_trans (ih _) (weight_applyAction st a)

theorem maskLe_foldl {B : ℕ} (as : List (RuleAction p V)) {st : DriverState p V}
    (h : st.MaskLe B) : (as.foldl applyAction st).MaskLe B := by
  induction as generalizing st with
  | nil => exact h
  | cons a as ih => exact ih (maskLe_applyAction h a)

theorem foldl_smaller (as : List (RuleAction p V)) {st : DriverState p V}
    (ha : ∀ a ∈ as, a.About (· ∈ st.system.vars)) :
    (as.foldl applyAction st).system.weight < st.system.weight ∨
    ((as.foldl applyAction st).system = st.system ∧
      (as.foldl applyAction st).rank ≤ st.rank ∧
      (actionsProgress st as = true → (as.foldl applyAction st).rank < st.rank)) := by
  induction as generalizing st with
  | nil => exact Or.inr ⟨rfl, le_refl _, by simp [actionsProgress]⟩
  | cons a as ih =>
    rcases applyAction_smaller (ha a (by simp)) with h | ⟨h1, h2, h2'⟩
    · exact Or.inl (lt_of_le_of_lt (weight_foldl as _) h)
    · have := ih (fun b hb => by rw [h1]; exact ha b (by simp [hb]))
      rw [h1] at this
      rcases this with h | ⟨h3, h4, h4'⟩
      · exact Or.inl h
      · refine Or.inr ⟨h3, le_trans h4 h2, fun hp => ?_⟩
        simp only [actionsProgress, Bool.or_eq_true] at hp
        rcases hp with hp | hp
        · exact lt_of_le_of_lt h4 (h2' hp)
        · exact lt_of_lt_of_le (h4' hp) h2

/-! ### The substitutions of a round -/

/-- The system after the actions of a round is the one before it with a function applied to every
expression, which introduces no variable outside `T`. -/
theorem foldl_map {T : V → Prop} (as : List (RuleAction p V)) (st : DriverState p V)
    (ha : ∀ v w, RuleAction.substituteByVariable v w ∈ as → T w) :
    ∃ F : GExpr p V → GExpr p V,
      (as.foldl applyAction st).system.algebraic = st.system.algebraic.map F ∧
      (as.foldl applyAction st).system.bus = st.system.bus.map (fun b => b.map F) ∧
      ∀ v, ¬ T v → ∀ e, v ∈ (F e).vars → v ∈ e.vars := by
  induction as generalizing st with
  | nil =>
    refine ⟨id, by simp, ?_, fun v _ e h => h⟩
    have : (fun b : BusInteraction (GExpr p V) => b.map id) = id := by
      funext b; cases b; simp [BusInteraction.map]
    rw [this]; simp
  | cons a as ih =>
    obtain ⟨F, h1, h2, h3⟩ := ih (applyAction st a) fun v w h => ha v w (by simp [h])
    have one : ∃ G : GExpr p V → GExpr p V,
        (applyAction st a).system.algebraic = st.system.algebraic.map G ∧
        (applyAction st a).system.bus = st.system.bus.map (fun b => b.map G) ∧
        ∀ v, ¬ T v → ∀ e, v ∈ (G e).vars → v ∈ e.vars := by
      have same : ∃ G : GExpr p V → GExpr p V,
          st.system.algebraic = st.system.algebraic.map G ∧
          st.system.bus = st.system.bus.map (fun b => b.map G) ∧
          ∀ v, ¬ T v → ∀ e, v ∈ (G e).vars → v ∈ e.vars := by
        refine ⟨id, by simp, ?_, fun v _ e h => h⟩
        have : (fun b : BusInteraction (GExpr p V) => b.map id) = id := by
          funext b; cases b; simp [BusInteraction.map]
        rw [this]; simp
      cases a with
      | updateRange v rc =>
        simp only [applyAction]
        split
        · split
          · exact ⟨_, rfl, rfl, fun u _ e h => (vars_substKnown _ _ h).1⟩
          · exact same
        · exact same
      | substituteByConstant v k => exact ⟨_, rfl, rfl, fun u _ e h => (vars_substKnown _ _ h).1⟩
      | substituteByVariable v w =>
        refine ⟨_, rfl, rfl, fun u hu e h => ?_⟩
        rcases vars_subst _ _ h with h | h
        · exact h.1
        · rw [vars_var, List.mem_singleton] at h
          exact absurd (h.1 ▸ ha v w (by simp)) hu
    obtain ⟨G, g1, g2, g3⟩ := one
    refine ⟨F ∘ G, ?_, ?_, fun v hv e h => g3 v hv e (h3 v hv _ h)⟩
    · rw [List.foldl_cons, h1, g1, List.map_map]
    · rw [List.foldl_cons, h2, g2, List.map_map]
      congr 1
      funext b
      cases b
      simp [BusInteraction.map]

theorem onlyOnce_map {s s' : ConstraintSystem p V} {F : GExpr p V → GExpr p V} {v : V}
    (h1 : s'.algebraic = s.algebraic.map F) (h2 : s'.bus = s.bus.map (fun b => b.map F))
    (h3 : ∀ e, v ∈ (F e).vars → v ∈ e.vars) (hv : s.vars.count v = 1) {x : GExpr p V}
    (hx : x ∈ s.algebraic) (hvx : v ∈ x.vars) : s'.OnlyOnce v := by
  have hcount : s.vars.count v = (s.algebraic.flatMap GExpr.vars).count v +
      (s.bus.flatMap busVars).count v := by rw [ConstraintSystem.vars, List.count_append]
  have hbus : ∀ b ∈ s'.bus, v ∈ busVars b → v ∈ s.bus.flatMap busVars := by
    intro b hb hvb
    rw [h2] at hb
    obtain ⟨b, hb', rfl⟩ := List.mem_map.1 hb
    rw [mem_busVars_fields, fields_map] at hvb
    obtain ⟨e', he', hvb⟩ := hvb
    obtain ⟨e, he, rfl⟩ := List.mem_map.1 he'
    exact List.mem_flatMap.2 ⟨b, hb', mem_busVars_fields.2 ⟨e, he, h3 e hvb⟩⟩
  obtain ⟨a, b, hab, hother, -⟩ := count_flatMap_split GExpr.vars v hx hvx (by omega)
  have hpos : 0 < (s.algebraic.flatMap GExpr.vars).count v :=
    List.count_pos_iff.2 (List.mem_flatMap.2 ⟨x, hx, hvx⟩)
  refine ⟨⟨F x, fun e he hve => ?_⟩, fun b hb hvb => ?_⟩
  · rw [h1] at he
    obtain ⟨y, hy, rfl⟩ := List.mem_map.1 he
    have hvy := h3 y hve
    rw [hab] at hy
    rcases List.mem_append.1 hy with hy | hy
    · exact absurd hvy (hother y (List.mem_append.2 (Or.inl hy)))
    · rcases List.mem_cons.1 hy with rfl | hy
      · rfl
      · exact absurd hvy (hother y (List.mem_append.2 (Or.inr hy)))
  · have := List.count_pos_iff.2 (hbus b hb hvb)
    omega

/-! ### A round -/

/-- A round with progress makes the system smaller, or it keeps the system, up to derived variables,
and makes the range constraints smaller. -/
theorem round_smaller {rc : V → RangeConstraint p} {h : Handler p} {intBits : ℕ}
    {bound : Option DegreeBound} {st : DriverState p V} (hw : st.system.WF)
    {lt : GExpr p V → GExpr p V → Prop} (hlt : ∀ e, ¬ lt e e)
    {new : List (DerivedVariable p V)} {inp : RuleInput p V}
    (hinp : driverInput rc h lt (fun w m => ⟨w, m⟩ ∈ new) intBits st = .ok inp)
    {actions : List (RuleAction p V)} (hactions : ∀ a ∈ actions, a.Requested inp)
    {rs : List (ReplacementAction p V)} (hrs : ∀ r ∈ rs, r.Requested inp)
    (hprogress : roundProgress st actions new rs bound = true) :
    (driverRound st actions new rs bound).system.weight < st.system.weight ∨
    ((driverRound st actions new rs bound).system.weight = st.system.weight ∧
      (driverRound st actions new rs bound).rank < st.rank) := by
  have hwi := wf_driverInput hw hinp
  obtain ⟨ranges, hr, i1, i2, i3, i4, -, -⟩ := driverInput_ok hinp
  have ilt : inp.lt = lt := by
    unfold driverInput at hinp
    rw [hr] at hinp
    cases hinp; rfl
  have w1 : ∀ e ∈ inp.constraints, ∀ v ∈ e.vars, v ∈ st.system.vars := by
    rw [i1]; exact fun e he v hv => mem_csVars.2 (Or.inl ⟨e, he, hv⟩)
  have w2 : ∀ x ∈ inp.exprRanges, ∀ v ∈ x.1.vars, v ∈ st.system.vars := by
    rw [i2]
    refine groupRanges_spec (fun e _ => ∀ v ∈ e.vars, v ∈ st.system.vars) (fun e r r' h _ => h)
      fun x hx => ?_
    obtain ⟨b, hb, hm⟩ := busRanges_mem hr x hx
    exact fun v hv => mem_csVars.2 (Or.inr ⟨b, hb, mem_busVars_fields.2 ⟨_, hm, hv⟩⟩)
  have within : ∀ {f}, Derives inp f → f.Within inp (· ∈ st.system.vars) :=
    fun hd => within_of_derives hwi w1 w2 hd
  have about : ∀ a ∈ actions, a.About (· ∈ st.system.vars) := by
    intro a ha
    have := hactions a ha
    cases a with
    | updateRange v rc => exact within this
    | substituteByConstant v k => exact within this
    | substituteByVariable v w =>
      refine ⟨(within this).1.1, (within this).2.1, ?_⟩
      cases this with
      | substituteLeft h hv => exact ne_of_lt hv
      | substituteRight h hv => exact ne_of_lt hv
  have hone := single_driverInput hinp
  obtain ⟨F, f1, f2, f3⟩ := foldl_map (T := inp.Twice) actions st
    (fun v w ha => (within (hactions _ ha)).2.2)
  have honly : ∀ v ∈ inp.single, ∀ e ∈ inp.constraints, v ∈ e.vars →
      (beforeBatch st actions new).OnlyOnce v := by
    intro v hv e he hve
    have hnt : ¬ inp.Twice v := by
      rintro ⟨e', he', h2⟩
      have := hone v hv e' he'
      omega
    rw [i1] at he
    rw [i4] at hv
    simp only [singleOccurrence, List.mem_filter, decide_eq_true_eq] at hv
    exact onlyOnce_map (s := st.system) f1 f2 (f3 v hnt) hv.2 he hve
  have hb := weight_batch (inp := inp) (beforeBatch st actions new) rs bound honly
    (fun r hr => shrinks_of_requested hwi (ilt ▸ hlt) hone (hrs r hr))
  have hadd : (beforeBatch st actions new).weight =
      (actions.foldl applyAction st).system.weight := rfl
  have hle := weight_foldl actions st
  have hs : (driverRound st actions new rs bound).system =
      (batchReplace (beforeBatch st actions new) rs bound).2 := rfl
  rw [hs]
  by_cases hbt : (batchReplace (beforeBatch st actions new) rs bound).1 = true
  · left
    have := hb.1 hbt
    omega
  · have hsame := hb.2 (by simpa using hbt)
    have hap : actionsProgress st actions = true := by
      unfold roundProgress at hprogress
      rw [Bool.or_eq_true] at hprogress
      exact hprogress.resolve_right hbt
    rcases foldl_smaller actions about with h | ⟨h1, h2, h3⟩
    · left
      rw [hsame]
      omega
    · right
      refine ⟨by rw [hsame, hadd, h1], ?_⟩
      have : (driverRound st actions new rs bound).rank =
          (actions.foldl applyAction st).rank := by
        unfold DriverState.rank
        rw [hs, hsame]
        rfl
      rw [this]
      exact h3 hap

/-- The largest mask of the variables of the system, or that of an unconstrained variable. -/
theorem exists_maskLe (st : DriverState p V) : ∃ B, st.MaskLe B := by
  have key : ∀ m : List (V × RangeConstraint p), ∃ B, ∀ v,
      ((mapGet v m).getD unconstrained).mask ≤ B := by
    intro m
    induction m with
    | nil => exact ⟨_, fun v => le_refl _⟩
    | cons x m ih =>
      obtain ⟨B, hB⟩ := ih
      refine ⟨Nat.max B x.2.mask, fun v => ?_⟩
      obtain ⟨k, w⟩ := x
      rw [mapGet]
      split
      · exact Nat.le_max_right _ _
      · exact le_trans (hB v) (Nat.le_max_left _ _)
  exact key st.ranges

theorem rank_le {B : ℕ} {st : DriverState p V} (h : st.MaskLe B) :
    st.rank ≤ st.system.weight * ((p + B + 1) * p) := by
  unfold DriverState.rank
  refine le_trans (Finset.sum_le_card_nsmul _ _ _ fun v _ => rcRank_le (h v)) ?_
  rw [smul_eq_mul]
  refine Nat.mul_le_mul_right _ ?_
  unfold ConstraintSystem.weight
  omega

theorem maskLe_round {B : ℕ} {st : DriverState p V} (h : st.MaskLe B)
    (actions : List (RuleAction p V)) (new : List (DerivedVariable p V))
    (rs : List (ReplacementAction p V)) (bound : Option DegreeBound) :
    (driverRound st actions new rs bound).MaskLe B := maskLe_foldl actions h

/-- The number of rounds from a state is bounded. -/
theorem goesOn_bound {st : DriverState p V} (hw : st.system.WF) :
    ∃ N, ∀ (rc : V → RangeConstraint p) (h : Handler p) (intBits : ℕ) (bound : Option DegreeBound)
      (n : ℕ) (st' : DriverState p V), DriverGoesOn rc h intBits bound n st st' → n ≤ N := by
  obtain ⟨B, hB⟩ := exists_maskLe st
  obtain ⟨R, hR⟩ : ∃ R, R = (p + B + 1) * p := ⟨_, rfl⟩
  obtain ⟨K, hK⟩ : ∃ K, K = st.system.weight := ⟨_, rfl⟩
  refine ⟨K * (K * R + 1) + st.rank, fun rc h intBits bound n st' run => ?_⟩
  have key : st'.system.WF ∧ st'.MaskLe B ∧ st'.system.weight ≤ K ∧
      n + (st'.system.weight * (K * R + 1) + st'.rank) ≤ K * (K * R + 1) + st.rank := by
    induction run with
    | start => exact ⟨hw, hB, hK.ge, by rw [← hK]; omega⟩
    | @round n _ st' run lt hlt new inp hinp actions hactions rs hrs hprogress ih =>
      obtain ⟨a1, a2, a3, a4⟩ := ih hw hB hK
      have b1 : (driverRound st' actions new rs bound).system.WF :=
        wf_batchReplace (fun r hr => wf_requested (wf_driverInput a1 hinp) (hrs r hr))
          (wf_addDerived (wf_foldl_applyAction a1 actions) _)
      have b2 := maskLe_round a2 actions new rs bound
      have b3 := round_smaller a1 hlt hinp hactions hrs hprogress
      generalize driverRound st' actions new rs bound = st2 at b1 b2 b3 ⊢
      have b4 : st2.rank ≤ K * R := by
        refine le_trans (rank_le b2) ?_
        rw [← hR]
        exact Nat.mul_le_mul_right _ (by rcases b3 with b3 | b3 <;> omega)
      refine ⟨b1, b2, by omega, ?_⟩
      rcases b3 with b3 | ⟨b3, b5⟩
      · have : (st2.system.weight + 1) * (K * R + 1) ≤ st'.system.weight * (K * R + 1) :=
          Nat.mul_le_mul_right _ b3
        rw [Nat.add_mul, Nat.one_mul] at this
        omega
      · rw [b3]; omega
  omega

end Actions

end Verif
