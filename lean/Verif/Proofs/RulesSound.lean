import Verif.Proofs.Rules

set_option linter.unusedSectionVars false

namespace Verif

open RangeConstraint GExpr

variable {p : ℕ} {V : Type} [LinearOrder V] [Fact p.Prime]

/-! ### Ranges -/

theorem allows_min_zero {r : RangeConstraint p} {x : ZMod p} (h : r.allowsValue x = true)
    (h0 : r.min = 0) : x.val ≤ r.max.val := by
  have := ((allowsValue_iff r x).1 h).1
  unfold InCyc at this
  rwa [h0, sub_zero, sub_zero] at this

theorem neg_one_val : (-1 : ZMod p).val = p - 1 := by
  have := (Fact.out : p.Prime).two_le
  obtain ⟨n, rfl⟩ : ∃ n, p = n + 1 := ⟨p - 1, by omega⟩
  exact ZMod.val_neg_one n

/-- Two small values adding up to zero are both zero. -/
theorem both_zero {x y : ZMod p} (h : x.val + y.val < p) (h0 : x + y = 0) : x = 0 ∧ y = 0 := by
  have h1 : (x + y).val = x.val + y.val := ZMod.val_add_of_lt h
  rw [h0, ZMod.val_zero] at h1
  exact ⟨(ZMod.val_eq_zero x).1 (by omega), (ZMod.val_eq_zero y).1 (by omega)⟩

theorem boolean_of_mask {x : ZMod p} (h : (fromMask 1 : RangeConstraint p).allowsValue x = true) :
    x = 0 ∨ x = 1 := by
  have h1 := ((fromMask_allows 1 x).1 ((allowsValue_iff _ _).1 h)).le
  have h2 : x.val = 0 ∨ x.val = 1 := by omega
  rcases h2 with h2 | h2
  · exact Or.inl ((ZMod.val_eq_zero x).1 h2)
  · right
    rw [← ZMod.natCast_zmod_val x, h2]; simp

/-! ### Exactly one -/

/-- The number of variables assigned one. -/
theorem sum_boolean (σ : V → ZMod p) (f : ZMod p) (l : List (V × ZMod p))
    (hf : ∀ x ∈ l, x.2 = f) (hb : ∀ x ∈ l, σ x.1 = 0 ∨ σ x.1 = 1) :
    (l.map fun e => e.2 * σ e.1).sum = f * ((l.countP fun e => σ e.1 = 1 : ℕ) : ZMod p) := by
  induction l with
  | nil => simp
  | cons x l ih =>
    rw [List.map_cons, List.sum_cons, ih (fun y hy => hf y (List.mem_cons_of_mem _ hy))
      (fun y hy => hb y (List.mem_cons_of_mem _ hy)), List.countP_cons, hf x (by simp)]
    rcases hb x (by simp) with h | h
    · simp [h]
    · simp [h]; ring

theorem exists_unique_of_countP {α : Type} (P : α → Bool) (l : List α) (h : l.countP P = 1) :
    ∃ x ∈ l, P x = true ∧ ∃ a b, l = a ++ x :: b ∧ (∀ y ∈ a, P y = false) ∧
      ∀ y ∈ b, P y = false := by
  induction l with
  | nil => simp at h
  | cons x l ih =>
    rw [List.countP_cons] at h
    by_cases hx : P x = true
    · rw [if_pos hx] at h
      have h0 : l.countP P = 0 := by omega
      refine ⟨x, by simp, hx, [], l, rfl, by simp, fun y hy => ?_⟩
      simpa using List.countP_eq_zero.1 h0 y hy
    · rw [if_neg hx] at h
      obtain ⟨y, hy, hPy, a, b, rfl, ha, hb⟩ := ih (by simpa using h)
      refine ⟨y, List.mem_cons_of_mem _ hy, hPy, x :: a, b, rfl, fun z hz => ?_, hb⟩
      rcases List.mem_cons.1 hz with rfl | hz
      · simpa using hx
      · exact ha z hz

theorem keys_unique {l : List (V × ZMod p)} (h : l.Pairwise fun e f => e.1 < f.1) {v : V}
    {a b : ZMod p} (ha : (v, a) ∈ l) (hb : (v, b) ∈ l) : a = b := by
  induction l with
  | nil => cases ha
  | cons x l ih =>
    rw [List.pairwise_cons] at h
    rcases List.mem_cons.1 ha with ha | ha <;> rcases List.mem_cons.1 hb with hb | hb
    · rw [← ha] at hb; cases hb; rfl
    · exact absurd (h.1 _ hb) (by rw [← ha]; exact lt_irrefl _)
    · exact absurd (h.1 _ ha) (by rw [← hb]; exact lt_irrefl _)
    · exact ih h.2 ha hb

theorem exactlyOne_sound {σ : V → ZMod p} {e : GExpr p V} {f c : ZMod p} {l : List (V × ZMod p)}
    (hw : WF e) (he : e = mk [] l c) (hf0 : f ≠ 0) (hf : ∀ x ∈ l, x.2 = f)
    (hb : ∀ v ∈ e.vars, σ v = 0 ∨ σ v = 1) (hfc : f + c = 0) (hlen : l.length ≤ p)
    (h0 : eval σ e = 0) : ∃ v, Occurs v e ∧ σ v = 1 ∧ ∀ w, Occurs w e → w ≠ v → σ w = 0 := by
  subst he
  have hb' : ∀ x ∈ l, σ x.1 = 0 ∨ σ x.1 = 1 := fun x hx => hb x.1 ((vars_affine x.1).2 ⟨x.2, hx⟩)
  rw [eval_mk, sum_boolean σ f l hf hb'] at h0
  set n := l.countP fun e => σ e.1 = 1 with hn
  have h1 : (n : ZMod p) = 1 := by
    have hc : c = -f := by linear_combination hfc
    rw [hc] at h0
    have : f * ((n : ZMod p) - 1) = 0 := by simp at h0; linear_combination h0
    rcases mul_eq_zero.1 this with h | h
    · exact absurd h hf0
    · linear_combination h
  have hnp : n ≤ p := le_trans List.countP_le_length hlen
  have hp2 := (Fact.out : p.Prime).two_le
  have hn1 : n = 1 := by
    have h2 : ((n : ℕ) : ZMod p).val = 1 := by
      rw [h1]; have : Fact (1 < p) := ⟨by omega⟩; exact ZMod.val_one p
    rw [ZMod.val_natCast] at h2
    rcases Nat.lt_or_ge n p with h | h
    · rwa [Nat.mod_eq_of_lt h] at h2
    · have : n = p := le_antisymm hnp h
      rw [this, Nat.mod_self] at h2
      omega
  obtain ⟨x, hx, hPx, a, b, rfl, ha, hb2⟩ := exists_unique_of_countP _ l hn1
  refine ⟨x.1, mem_vars_iff_occurs.1 ((vars_affine _).2 ⟨x.2, hx⟩), by simpa using hPx,
    fun w hw' hne => ?_⟩
  obtain ⟨k, hk⟩ := (vars_affine w).1 (mem_vars_iff_occurs.2 hw')
  have hz := hb' _ hk
  rcases List.mem_append.1 hk with h | h
  · have := ha _ h
    simp at this
    exact hz.resolve_right this
  · rcases List.mem_cons.1 h with h | h
    · exact absurd (congrArg Prod.fst h) hne
    · have := hb2 _ h
      simp at this
      exact hz.resolve_right this

/-- Under a one-hot assignment an affine expression has the value of the hot coefficient. -/
theorem sum_oneHot (σ : V → ZMod p) (h : V) (h1 : σ h = 1) (l : List (V × ZMod p))
    (hs : l.Pairwise fun e f => e.1 < f.1) (h0 : ∀ x ∈ l, x.1 ≠ h → σ x.1 = 0) :
    (∃ k, (h, k) ∈ l ∧ (l.map fun e => e.2 * σ e.1).sum = k) ∨
    ((∀ k, (h, k) ∉ l) ∧ (l.map fun e => e.2 * σ e.1).sum = 0) := by
  by_cases hm : ∃ k, (h, k) ∈ l
  · obtain ⟨k, hk⟩ := hm
    left
    refine ⟨k, hk, ?_⟩
    obtain ⟨a, b, rfl⟩ := List.append_of_mem hk
    have hz : ∀ x ∈ a ++ b, x.2 * σ x.1 = 0 := by
      intro x hx
      rw [h0 x (by
        rcases List.mem_append.1 hx with h | h
        · exact List.mem_append.2 (Or.inl h)
        · exact List.mem_append.2 (Or.inr (List.mem_cons_of_mem _ h)))]
      · ring
      · intro e
        rw [List.pairwise_append, List.pairwise_cons] at hs
        rcases List.mem_append.1 hx with h' | h'
        · exact absurd e (ne_of_lt (hs.2.2 x h' (h, k) (by simp)))
        · exact absurd e (ne_of_gt (hs.2.1.1 x h'))
    have hzs : ∀ m : List (V × ZMod p), (∀ x ∈ m, x.2 * σ x.1 = 0) →
        (m.map fun e => e.2 * σ e.1).sum = 0 := by
      intro m hm
      apply List.sum_eq_zero
      intro y hy
      obtain ⟨x, hx, rfl⟩ := List.mem_map.1 hy
      exact hm x hx
    rw [List.map_append, List.sum_append, List.map_cons, List.sum_cons,
      hzs a (fun x hx => hz x (List.mem_append.2 (Or.inl hx))),
      hzs b (fun x hx => hz x (List.mem_append.2 (Or.inr hx))), h1]
    ring
  · right
    refine ⟨fun k hk => hm ⟨k, hk⟩, ?_⟩
    apply List.sum_eq_zero
    intro y hy
    obtain ⟨x, hx, rfl⟩ := List.mem_map.1 hy
    rw [h0 x hx (fun e => hm ⟨x.2, by rw [← e]; exact hx⟩)]
    ring

/-! ### Merge join -/

/-- The left entries of a merge join. -/
def lefts : List (EitherOrBoth (V × ZMod p)) → List (V × ZMod p)
  | [] => []
  | .left x :: t => x :: lefts t
  | .right _ :: t => lefts t
  | .both x _ :: t => x :: lefts t

/-- The right entries of a merge join. -/
def rights : List (EitherOrBoth (V × ZMod p)) → List (V × ZMod p)
  | [] => []
  | .left _ :: t => rights t
  | .right y :: t => y :: rights t
  | .both _ y :: t => y :: rights t

/-- The pairs of a merge join. -/
def boths : List (EitherOrBoth (V × ZMod p)) → List ((V × ZMod p) × (V × ZMod p))
  | [] => []
  | .left _ :: t => boths t
  | .right _ :: t => boths t
  | .both x y :: t => (x, y) :: boths t

theorem lefts_map_left (l : List (V × ZMod p)) : lefts (l.map EitherOrBoth.left) = l ∧
    rights (l.map EitherOrBoth.left) = [] ∧ boths (l.map EitherOrBoth.left) = [] := by
  induction l with
  | nil => simp [lefts, rights, boths]
  | cons x l ih => simp [lefts, rights, boths, ih]

theorem lefts_map_right (l : List (V × ZMod p)) : lefts (l.map EitherOrBoth.right) = [] ∧
    rights (l.map EitherOrBoth.right) = l ∧ boths (l.map EitherOrBoth.right) = [] := by
  induction l with
  | nil => simp [lefts, rights, boths]
  | cons x l ih => simp [lefts, rights, boths, ih]

theorem mergeJoin_spec (a b : List (V × ZMod p)) : lefts (mergeJoin a b) = a ∧
    rights (mergeJoin a b) = b ∧ ∀ x ∈ boths (mergeJoin a b), x.1.1 = x.2.1 := by
  fun_induction mergeJoin a b with
  | case1 b => simp [lefts_map_right]
  | case2 a => simp [lefts_map_left]
  | case3 x a y b h ih =>
    refine ⟨by simp [lefts, ih.1], by simp [rights, ih.2.1], fun z hz => ?_⟩
    simp only [boths, List.mem_cons] at hz
    rcases hz with rfl | hz
    · exact h
    · exact ih.2.2 z hz
  | case4 x a y b h h' ih =>
    exact ⟨by simp [lefts, ih.1], by simp [rights, ih.2.1], by simpa [boths] using ih.2.2⟩
  | case5 x a y b h h' ih =>
    exact ⟨by simp [lefts, ih.1], by simp [rights, ih.2.1], by simpa [boths] using ih.2.2⟩

/-- The entries that are only on the left. -/
def onlyLeft (m : List (EitherOrBoth (V × ZMod p))) : List (V × ZMod p) :=
  lefts (m.filter fun x => !x.isBoth)

/-- The entries that are only on the right. -/
def onlyRight (m : List (EitherOrBoth (V × ZMod p))) : List (V × ZMod p) :=
  rights (m.filter fun x => !x.isBoth)

theorem lefts_perm (m : List (EitherOrBoth (V × ZMod p))) :
    (lefts m).Perm (onlyLeft m ++ (boths m).map Prod.fst) := by
  unfold onlyLeft
  induction m with
  | nil => simp [lefts, boths]
  | cons x m ih =>
    cases x with
    | left x => simpa [lefts, boths, EitherOrBoth.isBoth] using ih
    | right y => simpa [lefts, boths, EitherOrBoth.isBoth] using ih
    | both x y =>
      simp only [lefts, boths, EitherOrBoth.isBoth, List.map_cons, Bool.not_true,
        Bool.false_eq_true, not_false_eq_true, List.filter_cons_of_neg]
      exact (ih.cons x).trans List.perm_middle.symm

theorem rights_perm (m : List (EitherOrBoth (V × ZMod p))) :
    (rights m).Perm (onlyRight m ++ (boths m).map Prod.snd) := by
  unfold onlyRight
  induction m with
  | nil => simp [rights, boths]
  | cons x m ih =>
    cases x with
    | left x => simpa [rights, boths, EitherOrBoth.isBoth] using ih
    | right y => simpa [rights, boths, EitherOrBoth.isBoth] using ih
    | both x y =>
      simp only [rights, boths, EitherOrBoth.isBoth, List.map_cons, Bool.not_true,
        Bool.false_eq_true, not_false_eq_true, List.filter_cons_of_neg]
      exact (ih.cons y).trans List.perm_middle.symm

theorem lefts_filter (m : List (EitherOrBoth (V × ZMod p))) (P : V × ZMod p → Bool)
    (h : ∀ x ∈ onlyLeft m, P x = false) :
    (lefts m).filter P = ((boths m).map Prod.fst).filter P := by
  unfold onlyLeft at h
  induction m with
  | nil => simp [lefts, boths]
  | cons x m ih =>
    cases x with
    | left x =>
      simp only [EitherOrBoth.isBoth, Bool.not_false, List.filter_cons_of_pos, lefts,
        List.mem_cons, forall_eq_or_imp] at h
      simp only [lefts, boths, List.filter_cons, h.1]
      exact ih h.2
    | right y =>
      simp only [EitherOrBoth.isBoth, Bool.not_false, List.filter_cons_of_pos, lefts] at h
      exact ih h
    | both x y =>
      simp only [EitherOrBoth.isBoth, Bool.not_true, Bool.false_eq_true, not_false_eq_true,
        List.filter_cons_of_neg] at h
      simp only [lefts, boths, List.map_cons, List.filter_cons, ih h]

theorem rights_filter (m : List (EitherOrBoth (V × ZMod p))) (P : V × ZMod p → Bool)
    (h : ∀ x ∈ onlyRight m, P x = false) :
    (rights m).filter P = ((boths m).map Prod.snd).filter P := by
  unfold onlyRight at h
  induction m with
  | nil => simp [rights, boths]
  | cons x m ih =>
    cases x with
    | right x =>
      simp only [EitherOrBoth.isBoth, Bool.not_false, List.filter_cons_of_pos, rights,
        List.mem_cons, forall_eq_or_imp] at h
      simp only [rights, boths, List.filter_cons, h.1]
      exact ih h.2
    | left y =>
      simp only [EitherOrBoth.isBoth, Bool.not_false, List.filter_cons_of_pos, rights] at h
      exact ih h
    | both x y =>
      simp only [EitherOrBoth.isBoth, Bool.not_true, Bool.false_eq_true, not_false_eq_true,
        List.filter_cons_of_neg] at h
      simp only [rights, boths, List.map_cons, List.filter_cons, ih h]

theorem sum_boths (σ : V → ZMod p) (f : ZMod p) (l : List ((V × ZMod p) × (V × ZMod p)))
    (hk : ∀ x ∈ l, x.1.1 = x.2.1)
    (hc : (l.map Prod.fst).map (fun e => e.2) = (l.map Prod.snd).map fun e => e.2 * f) :
    ((l.map Prod.fst).map fun e => e.2 * σ e.1).sum =
      f * ((l.map Prod.snd).map fun e => e.2 * σ e.1).sum := by
  induction l with
  | nil => simp
  | cons x l ih =>
    simp only [List.map_cons, List.cons.injEq] at hc
    simp only [List.map_cons, List.sum_cons]
    rw [ih (fun y hy => hk y (List.mem_cons_of_mem _ hy)) hc.2, hc.1, hk x (by simp)]
    ring

theorem lookup_mem {l : List (V × ZMod p)} {v : V} {c : ZMod p} (h : Linear.lookup v l = some c) :
    (v, c) ∈ l := by
  induction l with
  | nil => simp [Linear.lookup] at h
  | cons x l ih =>
    obtain ⟨w, d⟩ := x
    simp only [Linear.lookup] at h
    split at h
    · rename_i e; cases h; subst e; simp
    · exact List.mem_cons_of_mem _ (ih h)

/-- The two expressions differ, up to the factor, in exactly one variable. -/
theorem differ_spec {a b : GExpr p V} (ha : WF a) (hb : WF b) {v1 v2 : V} {f : ZMod p}
    (h : differInExactlyOneVariable a b = some (v1, v2, f)) :
    f ≠ 0 ∧ ∃ c, (v1, c) ∈ a.linear ∧ c ≠ 0 ∧
      ∀ σ, eval σ a = f * eval σ b + c * (σ v1 - σ v2) := by
  unfold differInExactlyOneVariable at h
  split at h
  · cases h
  rename_i hcond
  extract_lets cand at h
  obtain ⟨cand', hcand⟩ : ∃ c', c' = cand := ⟨_, rfl⟩
  rw [← hcand] at h
  split at h
  · cases h
  rename_i lv rv fac
  split at h
  · cases h
  rename_i hconst
  split at h
  · cases h
  rename_i hmap
  cases h
  push Not at hconst hmap
  obtain ⟨qa, la, ca⟩ := a
  obtain ⟨qb, lb, cb⟩ := b
  obtain ⟨_, sa, na⟩ := wf_inv ha
  obtain ⟨_, sb, nb⟩ := wf_inv hb
  simp only [linear, constant] at hconst hmap
  replace hcand := hcand.symm
  simp only [cand, linear] at hcand
  have hqa : qa = [] := by
    by_contra hq
    exact hcond (Or.inl (by simpa [isAffine, isQuadratic, quadratic] using hq))
  have hqb : qb = [] := by
    by_contra hq
    exact hcond (Or.inr (Or.inl (by simpa [isAffine, isQuadratic, quadratic] using hq)))
  subst hqa hqb
  obtain ⟨j1, j2, j3⟩ := mergeJoin_spec la lb
  have key : ∀ lc rc : ZMod p, onlyLeft (mergeJoin la lb) = [(v1, lc)] →
      onlyRight (mergeJoin la lb) = [(v2, rc)] → f = lc * rc⁻¹ → ca = cb * f →
      ((la.filter fun e => e.1 ≠ v1).map fun e => e.2) =
        ((lb.filter fun e => e.1 ≠ v2).map fun e => e.2 * f) →
      f ≠ 0 ∧ ∃ c, (v1, c) ∈ la ∧ c ≠ 0 ∧
        ∀ σ, eval σ (mk [] la ca) = f * eval σ (mk [] lb cb) + c * (σ v1 - σ v2) := by
    intro lc rc o1 o2 hf hc hm
    have p1 := lefts_perm (mergeJoin la lb)
    have p2 := rights_perm (mergeJoin la lb)
    rw [j1, o1] at p1
    rw [j2, o2] at p2
    have m1 : (v1, lc) ∈ la := p1.mem_iff.2 (by simp)
    have m2 : (v2, rc) ∈ lb := p2.mem_iff.2 (by simp)
    have n1 := na _ m1
    have n2 := nb _ m2
    simp only at n1 n2
    have f1 := lefts_filter (mergeJoin la lb) (fun e => e.1 ≠ v1) (by
      intro x hx; rw [o1] at hx; simp at hx; simp [hx])
    have f2 := rights_filter (mergeJoin la lb) (fun e => e.1 ≠ v2) (by
      intro x hx; rw [o2] at hx; simp at hx; simp [hx])
    rw [j1] at f1
    rw [j2] at f2
    have d1 : ∀ x ∈ (boths (mergeJoin la lb)).map Prod.fst, x.1 ≠ v1 := by
      have := (sa.imp (S := fun e f => e.1 ≠ f.1) (fun h => ne_of_lt h)).perm p1
        (fun h => Ne.symm h)
      simp only [List.singleton_append, List.pairwise_cons] at this
      exact fun x hx => (this.1 x hx).symm
    have d2 : ∀ x ∈ (boths (mergeJoin la lb)).map Prod.snd, x.1 ≠ v2 := by
      have := (sb.imp (S := fun e f => e.1 ≠ f.1) (fun h => ne_of_lt h)).perm p2
        (fun h => Ne.symm h)
      simp only [List.singleton_append, List.pairwise_cons] at this
      exact fun x hx => (this.1 x hx).symm
    have g1 := (List.filter_eq_self (p := fun e : V × ZMod p => decide (e.1 ≠ v1))).2 (fun x hx => by simpa using d1 x hx)
    rw [g1] at f1
    have g2 := (List.filter_eq_self (p := fun e : V × ZMod p => decide (e.1 ≠ v2))).2 (fun x hx => by simpa using d2 x hx)
    rw [g2] at f2
    rw [f1, f2] at hm
    have hf0 : f ≠ 0 := by rw [hf]; exact mul_ne_zero n1 (inv_ne_zero n2)
    refine ⟨hf0, lc, m1, n1, fun σ => ?_⟩
    have hfr : f * rc = lc := by rw [hf]; field_simp
    rw [eval_mk, eval_mk, (p1.map _).sum_eq, (p2.map _).sum_eq]
    simp only [List.singleton_append, List.map_cons, List.sum_cons, List.map_nil, List.sum_nil]
    rw [sum_boths σ f _ j3 hm, hc, ← hfr]
    ring
  split at hcand
  · rename_i lv lc rv rc hfil
    cases hcand
    exact key lc rc (by unfold onlyLeft; rw [hfil]; rfl) (by unfold onlyRight; rw [hfil]; rfl) rfl
      hconst hmap
  · rename_i rv rc lv lc hfil
    cases hcand
    exact key lc rc (by unfold onlyLeft; rw [hfil]; rfl) (by unfold onlyRight; rw [hfil]; rfl) rfl
      hconst hmap
  · cases hcand

/-! ### Soundness -/

variable {inp : RuleInput p V}

theorem bool_of_shape {σ : V → ZMod p} (hσ : inp.SolvedBy σ) {v : V} (h : inp.Bool v) :
    σ v = 0 ∨ σ v = 1 := boolean_of_mask (hσ.varRanges _ h)

theorem quadraticPair_inv (hwf : inp.WF) {e1 e2 : GExpr p V} {o : ZMod p} {v1 v2 : V}
    (h : Derives inp (.quadraticEquivalenceCandidatePair e1 e2 o v1 v2)) {σ : V → ZMod p}
    (hσ : inp.SolvedBy σ) : σ v1 = σ v2 ∨ σ v1 = σ v2 + o ∨ σ v2 = σ v1 + o := by
  cases h with
  | @quadraticPair _ _ c1 c2 o1 o2 _ _ factor coeff h1 h2 hlt hd ho hc =>
    obtain ⟨m1, w1, l1, f1, nf1, p1, r1⟩ := shape_of_derives hwf h1
    obtain ⟨m2, w2, l2, f2, nf2, p2, r2⟩ := shape_of_derives hwf h2
    obtain ⟨hf0, c, hm, hc0, hev⟩ := differ_spec w1 w2 hd
    have hcc : coeff = c := by
      obtain ⟨q, l, k⟩ := e1
      exact keys_unique (wf_inv w1).2.1 (lookup_mem hc) hm
    subst hcc
    have z1 := hσ.constraints _ m1
    have z2 := hσ.constraints _ m2
    rw [p1.eval σ, r1 σ] at z1
    rw [p2.eval σ, r2 σ] at z2
    have z1' : eval σ e1 = 0 ∨ eval σ e1 = -o1 := by
      rcases mul_eq_zero.1 z1 with h | h
      · right
        have : f1 * (eval σ e1 + o1) = 0 := by linear_combination h
        rcases mul_eq_zero.1 this with h | h
        · exact absurd h nf1
        · linear_combination h
      · exact Or.inl h
    have z2' : eval σ e2 = 0 ∨ eval σ e2 = -o2 := by
      rcases mul_eq_zero.1 z2 with h | h
      · right
        have : f2 * (eval σ e2 + o2) = 0 := by linear_combination h
        rcases mul_eq_zero.1 this with h | h
        · exact absurd h nf2
        · linear_combination h
      · exact Or.inl h
    have e := hev σ
    rcases z1' with h1 | h1 <;> rcases z2' with h2 | h2 <;> rw [h1, h2] at e
    · left
      have : coeff * (σ v1 - σ v2) = 0 := by linear_combination -e
      rcases mul_eq_zero.1 this with h | h
      · exact absurd h hc0
      · linear_combination h
    · right; left
      field_simp
      subst ho
      linear_combination -e
    · right; right
      field_simp
      linear_combination e
    · left
      have : coeff * (σ v1 - σ v2) = 0 := by subst ho; linear_combination -e
      rcases mul_eq_zero.1 this with h | h
      · exact absurd h hc0
      · linear_combination h

theorem holds_of_derives (hwf : inp.WF) (hint : 2 * (p - 1) < 2 ^ inp.intBits)
    (hlen : ∀ e ∈ inp.constraints, e.linear.length ≤ p) {σ : V → ZMod p} (hσ : inp.SolvedBy σ)
    {f : RFact p V} (h : Derives inp f) : f.Holds σ := by
  have hp2 := (Fact.out : p.Prime).two_le
  induction h with
  | initial h => exact hσ.constraints _ h
  | varRange h => exact hσ.varRanges _ h
  | exprConstraint h ih => trivial
  | exprRange h => trivial
  | zeroConstraint h ih => exact ih
  | contains h hv ih => exact mem_vars_iff_occurs.1 hv
  | product h hp ih =>
    show eval σ _ = _
    rw [tryAsSingleProduct_eq hp, eval_mk_pair]
  | productSymm h ih =>
    show eval σ _ = _
    rw [show eval σ _ = _ from ih, mul_comm]
  | exprLeft h ih => trivial
  | exprRight h ih => trivial
  | affine h ha ih =>
    show eval σ _ = _
    rw [tryToAffine_eq ha, eval_mk_single]
  | linear h ih =>
    show eval σ _ = _
    rw [show eval σ _ = _ from ih, add_zero]
  | constant h hk ih => exact eval_known σ hk
  | headTail h hs ih => exact eval_split σ hs
  | exprHead h ih => trivial
  | exprTail h ih => trivial
  | simpleSumCons => trivial
  | simpleSumAffine => trivial
  | isAffineConstant => trivial
  | isAffineCons => trivial
  | hasSummandHead => trivial
  | hasSummandTail => trivial
  | @differHead e1 e2 s h ih =>
    have := shape_of_derives hwf (Derives.differHead h)
    exact eval_of_perm this.2.1 this.2.2.1 this.2.2.2.1 this.2.2.2.2 σ
  | differTail ht h1 h2 iht ih1 ih2 =>
    have := shape_of_derives hwf (Derives.differTail ht h1 h2)
    exact eval_of_perm this.2.1 this.2.2.1 this.2.2.2.1 this.2.2.2.2 σ
  | affinelyRelated h1 h2 ih1 ih2 =>
    exact (shape_of_derives hwf (Derives.affinelyRelated h1 h2)).2 σ
  | affinelyRelatedCons ht h1 l1 h2 l2 iht ih1 ihl1 ih2 ihl2 =>
    exact (shape_of_derives hwf (Derives.affinelyRelatedCons ht h1 l1 h2 l2)).2 σ
  | hasProductSummand => trivial
  | hasProductSummandSymm => trivial
  | productConstraint h hp ih ihp =>
    show _ * _ = _
    rw [← show eval σ _ = _ from ihp]; exact ih
  | subsetBase h1 h2 b1 b2 =>
    have := shape_of_derives hwf (Derives.subsetBase h1 h2 b1 b2)
    exact ⟨fun v hv => mem_vars_iff_occurs.1 (this.2.2.1 v (mem_vars_iff_occurs.2 hv)),
      fun v hv => bool_of_shape hσ (this.2.2.2 v (mem_vars_iff_occurs.2 hv))⟩
  | subsetBoth ht h1 l1 hb h2 l2 =>
    have := shape_of_derives hwf (Derives.subsetBoth ht h1 l1 hb h2 l2)
    exact ⟨fun v hv => mem_vars_iff_occurs.1 (this.2.2.1 v (mem_vars_iff_occurs.2 hv)),
      fun v hv => bool_of_shape hσ (this.2.2.2 v (mem_vars_iff_occurs.2 hv))⟩
  | subsetRight ht h2 hb =>
    have := shape_of_derives hwf (Derives.subsetRight ht h2 hb)
    exact ⟨fun v hv => mem_vars_iff_occurs.1 (this.2.2.1 v (mem_vars_iff_occurs.2 hv)),
      fun v hv => bool_of_shape hσ (this.2.2.2 v (mem_vars_iff_occurs.2 hv))⟩
  | allBooleanBase h hb =>
    have := shape_of_derives hwf (Derives.allBooleanBase h hb)
    exact fun v hv => bool_of_shape hσ (this.2 v (mem_vars_iff_occurs.2 hv))
  | allBooleanCons h hh ht =>
    have := shape_of_derives hwf (Derives.allBooleanCons h hh ht)
    exact fun v hv => bool_of_shape hσ (this.2 v (mem_vars_iff_occurs.2 hv))
  | rangeInitial h => exact hσ.exprRanges _ h
  | rangeSquare h hlr hl ih ihl =>
    subst hlr
    show _ = _
    rw [show eval σ _ = _ from ih]
    exact (allowsValue_iff _ _).2 (square_allows ((allowsValue_iff _ _).1 ihl))
  | rangeProduct h hlr hl hr ih ihl ihr =>
    show _ = _
    rw [show eval σ _ = _ from ih]
    exact (allowsValue_iff _ _).2 (combineProduct_allows ((allowsValue_iff _ _).1 ihl)
      ((allowsValue_iff _ _).1 ihr))
  | rangeLinear h hv ih ihv =>
    show _ = _
    rw [show eval σ _ = _ from ih, mul_comm]
    exact (allowsValue_iff _ _).2 (multiple_allows ((allowsValue_iff _ _).1 ihv))
  | rangeSum h hh ht ih ihh iht =>
    show _ = _
    rw [show eval σ _ = _ from ih]
    exact (allowsValue_iff _ _).2 (combineSum_allows ((allowsValue_iff _ _).1 ihh)
      ((allowsValue_iff _ _).1 iht))
  | rangeConstant h ih =>
    exact (allowsValue_iff _ _).2 ((fromValue_allows _ _).2 ih)
  | @updateAffine e rc c v o h ha hc ih iha =>
    show RangeConstraint.allowsValue _ (σ v) = true
    have ev : eval σ e = c * σ v + o := iha
    have := multiple_allows (f := 1 * c⁻¹) (combineSum_allows ((allowsValue_iff _ _).1 ih)
      ((fromValue_allows (-o) (-o)).2 rfl))
    rw [allowsValue_iff]
    have e' : (eval σ e + -o) * (1 * c⁻¹) = σ v := by rw [ev]; field_simp; ring
    rwa [e'] at this
  | @updateProduct e l r v c1 c2 h hlr hl hr ih ihl ihr =>
    refine (allowsValue_iff _ _).2 (disjunction_allows ?_)
    rcases mul_eq_zero.1 (show eval σ l * eval σ r = 0 from ih) with h | h
    · exact Or.inl ((fromValue_allows _ _).2 (ihl h))
    · exact Or.inr ((fromValue_allows _ _).2 (ihr h))
  | booleanVar h ih => exact boolean_of_mask ih
  | @booleanExpr e l r f c h ha hc ih iha =>
    obtain ⟨hf, hrel⟩ := shape_of_derives hwf ha
    rcases mul_eq_zero.1 (show eval σ l * eval σ r = 0 from ih) with h | h
    · right
      rw [hrel σ, hc] at h
      have : f * (eval σ r - 1) = 0 := by linear_combination h
      rcases mul_eq_zero.1 this with h | h
      · exact absurd h hf
      · linear_combination h
    · exact Or.inl h
  | single => trivial
  | singleIn => trivial
  | largestPair => trivial
  | freeVariableCandidate => trivial
  | replaceFreeVariables => trivial
  | plusMinus h ha hc ho ih iha =>
    show eval σ _ = _
    rw [show eval σ _ = _ from ih, show eval σ _ = _ from iha, hc, ho]; ring
  | diffMarker h hl hr h1 h2 =>
    obtain ⟨hm, k, k', hk, hk', he⟩ := shape_of_derives hwf (Derives.diffMarker h hl hr h1 h2)
    refine ⟨k', hk', ?_⟩
    have := hσ.constraints _ hm
    rw [he σ, mul_assoc] at this
    exact (mul_eq_zero.1 this).resolve_left hk
  | negatedBase h hl hr hv =>
    obtain ⟨hm, _, _, _, _, _, he, _⟩ := shape_of_derives hwf (Derives.negatedBase h hl hr hv)
    have := hσ.constraints _ hm
    rw [he σ] at this
    show _ * _ = (0 : ZMod p)
    linear_combination -this
  | negatedStep h hp hd hl hr hv =>
    obtain ⟨hm, _, _, _, _, _, he, _⟩ :=
      shape_of_derives hwf (Derives.negatedStep h hp hd hl hr hv)
    have := hσ.constraints _ hm
    rw [he σ] at this
    show _ * _ = (0 : ZMod p)
    linear_combination -this
  | negatedFinal h hp hd hl hr =>
    obtain ⟨hm, _, _, _, _, _, he, _⟩ :=
      shape_of_derives hwf (Derives.negatedFinal h hp hd hl hr)
    have := hσ.constraints _ hm
    rw [he σ] at this
    exact this
  | negatedFinalNegated => trivial
  | equalZeroCheck => trivial
  | replaceEqualZero => trivial
  | replaceProducts => trivial
  | @solvable e v c o h ih =>
    obtain ⟨_, hc⟩ := shape_of_derives hwf h
    intro h0
    have : eval σ e = c * σ v + o := ih
    rw [h0] at this
    field_simp
    linear_combination -this
  | assignment h hs ih ihs => exact ihs ih
  | @entailsZero e hd tl rch rct h hs hh ht hh0 ht0 hsum ih ihs ihh iht =>
    have e0 : eval σ hd + eval σ tl = 0 := by
      rw [← show eval σ e = _ from ihs]; exact ih
    apply both_zero _ e0
    have b1 := allows_min_zero ihh hh0
    have b2 := allows_min_zero iht ht0
    have l1 := ZMod.val_lt rch.max
    have l2 := ZMod.val_lt rct.max
    rw [intAdd, Nat.mod_eq_of_lt (by omega), neg_one_val] at hsum
    omega
  | zeroHead h ih => exact ih.1
  | zeroTail h ih => exact ih.2
  | @exactlyOneSet e f c h hs hb hfc ih ihs ihb =>
    obtain ⟨hf0, l, he, hf⟩ := shape_of_derives hwf hs
    have hm := shape_of_derives hwf h
    refine exactlyOne_sound (hwf.1 e hm) he hf0 hf
      (fun v hv => ihb v (mem_vars_iff_occurs.1 hv)) hfc ?_ ih
    have := hlen e hm
    rw [he] at this
    exact this
  | countConstant => trivial
  | countFound => trivial
  | countOther => trivial
  | @assignOneHot e1 e2 o f s v c h1 a1 hb a2 hc hs hl ih1 iha1 ihb iha2 ihc ihs ihl =>
    obtain ⟨w, hw, hw1, hw0⟩ := ih1
    obtain ⟨hw2, hq, hk, hf⟩ := shape_of_derives hwf hc
    obtain ⟨hsub, _⟩ := ihb
    obtain ⟨_, hsm⟩ := shape_of_derives hwf hs
    obtain ⟨hsl, hc0⟩ := shape_of_derives hwf hl
    obtain ⟨q, l, k⟩ := e2
    simp only [quadratic, GExpr.linear, GExpr.constant] at hq hk hf hsm
    subst hq hsl hk
    have hvm : (v, c) ∈ l := by
      rcases hsm with ⟨ab, h, _⟩ | ⟨vc, h, e⟩
      · simp at h
      · cases e; exact h
    have hocc : ∀ u d, (u, d) ∈ l → Occurs u e1 := fun u d hu =>
      hsub u (mem_vars_iff_occurs.1 ((vars_affine u).2 ⟨d, hu⟩))
    have e0 : eval σ (mk [] l (-f)) = 0 := iha2
    rw [eval_mk] at e0
    show σ v = _
    obtain ⟨_, hsort, hnz⟩ := wf_inv hw2
    rcases sum_oneHot σ w hw1 l hsort (fun x hx hne => hw0 x.1 (hocc x.1 x.2 hx) hne) with
      ⟨k, hkm, hks⟩ | ⟨hno, hks⟩
    · have : k = f := by simp [hks] at e0; linear_combination e0
      subst this
      have ho := (hf w).1 hkm
      subst ho
      split
      · rename_i he; cases he; exact hw1
      · rename_i he
        exact hw0 v (hocc v c hvm) (fun e => he (by rw [e]))
    · have f0 : f = 0 := by simp [hks] at e0; exact e0
      subst f0
      have hne : v ≠ w := fun e => hno c (e ▸ hvm)
      rw [if_neg, hw0 v (hocc v c hvm) hne]
      intro e
      exact hnz _ ((hf v).2 e.symm) rfl
  | @quadraticCandidate e l r f o h ha hi hn ih iha ihi =>
    obtain ⟨hf, hrel⟩ := shape_of_derives hwf ha
    have : eval σ l * eval σ r = 0 := ih
    rw [hrel σ] at this
    show eval σ r * _ = 0
    field_simp
    linear_combination this
  | quadraticPair => trivial
  | quadraticEquivalence h h1 h2 hd ih ih1 ih2 =>
    rcases quadraticPair_inv hwf h hσ with e | e | e
    · exact e
    · exfalso
      refine isDisjoint_sound hd _ ⟨(allowsValue_iff _ _).1 ih1, ?_⟩
      rw [e]
      exact combineSum_allows ((allowsValue_iff _ _).1 ih2) ((fromValue_allows _ _).2 rfl)
    · exfalso
      refine isDisjoint_sound hd _ ⟨(allowsValue_iff _ _).1 ih2, ?_⟩
      rw [e]
      exact combineSum_allows ((allowsValue_iff _ _).1 ih1) ((fromValue_allows _ _).2 rfl)
  | equivalence h ih => exact ih
  | substituteLeft h hv ih => exact ih
  | substituteRight h hv ih => exact Eq.symm ih

end Verif
