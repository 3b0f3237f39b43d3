import Verif.Model.Splitter
import Verif.Proofs.ConstraintSystem

/-! Helper lemmas about splitting constraints. -/

namespace Verif.Splitter

set_option linter.unusedSectionVars false

open Verif.GExpr

variable {p : ℕ} [Fact p.Prime] {V : Type} [LinearOrder V] {rc : V → RangeConstraint p}

theorem combineRemovingZeros_nil (q : List (GExpr p V × GExpr p V)) :
    combineRemovingZeros q [] = q := by
  unfold combineRemovingZeros
  split
  · simp
  · induction q with
    | nil => rfl
    | cons a t ih =>
      unfold combineLoop
      simp only [removeFirst]
      rw [ih]
      simp only [List.length_cons] at *
      omega

theorem sub_const {e : GExpr p V} (hw : WF e) (m : ZMod p) :
    e - const m = mk e.quadratic e.linear (e.constant - m) := by
  rcases e with ⟨q, l, c⟩
  change add (mk q l c) (neg (const m)) = _
  simp only [add, const, neg, negQ, quadratic, linear, constant, combineRemovingZeros_nil,
    List.map_nil, List.foldl_nil, ← sub_eq_add_neg, mk.injEq, true_and, and_true]
  rw [List.filter_eq_self]
  intro a ha
  simpa using (wf_inv hw).2.2 a ha

theorem combineSum_value_min {r : RangeConstraint p} {c : ZMod p}
    (h : (r.combineSum (.fromValue c)).width ≠ p) :
    r.width + 1 ≤ p ∧ (r.combineSum (.fromValue c)).min = r.min + c ∧
      (r.combineSum (.fromValue c)).max = r.max + c := by
  have hw1 : (RangeConstraint.fromValue c).width = 1 := by
    unfold RangeConstraint.width
    rw [rangeWidth_eq]
    simp [RangeConstraint.fromValue]
  unfold RangeConstraint.combineSum at h ⊢
  rw [hw1, RangeConstraint.unconstrained_width] at h ⊢
  by_cases hc : r.width + 1 ≤ p
  · simp only [hc, if_true] at h ⊢
    exact ⟨trivial, rfl, rfl⟩
  · exfalso
    simp only [hc, if_false] at h
    apply h
    have := RangeConstraint.unconstrained_width (p := p)
    unfold RangeConstraint.width at *
    exact this

theorem combineSum_value_min' {r : RangeConstraint p} {c : ZMod p} (h : r.width + 1 ≤ p) :
    (r.combineSum (.fromValue c)).min = r.min + c ∧
      (r.combineSum (.fromValue c)).max = r.max + c := by
  have hw1 : (RangeConstraint.fromValue c).width = 1 := by
    unfold RangeConstraint.width
    rw [rangeWidth_eq]
    simp [RangeConstraint.fromValue]
  unfold RangeConstraint.combineSum
  rw [hw1, RangeConstraint.unconstrained_width]
  simp only [h, if_true]
  exact ⟨rfl, rfl⟩

/-- Shifting an expression by the lower end of its range moves the range to zero. -/
theorem rangeConstraint_shift {e : GExpr p V} (hw : WF e)
    (h : (rangeConstraint rc e).width ≠ p) (m : ZMod p) :
    (rangeConstraint rc (e - const m)).min = (rangeConstraint rc e).min - m ∧
    (rangeConstraint rc (e - const m)).max = (rangeConstraint rc e).max - m := by
  rw [sub_const hw]
  rcases e with ⟨q, l, c⟩
  simp only [quadratic, linear, constant]
  unfold rangeConstraint at *
  generalize rangeConstraintQ rc q ++
        (l.map fun (v, k) => (rc v).combineProduct (RangeConstraint.fromValue k)) = A at *
  cases A with
  | nil => simp [RangeConstraint.fromValue]
  | cons r rs =>
    simp only [List.cons_append, List.foldl_append, List.foldl_cons, List.foldl_nil] at *
    obtain ⟨h1, h2, h3⟩ := combineSum_value_min h
    rw [h2, h3]
    have this := combineSum_value_min' (c := c - m) h1
    rw [this.1, this.2]
    constructor <;> ring

theorem width_eq_of_shift {r s : RangeConstraint p} {m : ZMod p} (h1 : r.min = s.min - m)
    (h2 : r.max = s.max - m) : r.width = s.width := by
  unfold RangeConstraint.width
  rw [rangeWidth_eq, rangeWidth_eq, h1, h2]
  congr 2
  ring

theorem uniqueCandidate_eq {r : RangeConstraint p} {rhs k s : ZMod p}
    (h : uniqueCandidate r rhs k = some s) {v : ZMod p} (hv : v = rhs ∨ v = rhs + k)
    (ha : r.Allows v) : v = s := by
  unfold uniqueCandidate at h
  have hmem : v ∈ [rhs, rhs + k].filter fun c => r.allowsValue c := by
    rw [List.mem_filter]
    exact ⟨by simpa using hv, (RangeConstraint.allowsValue_iff _ _).2 ha⟩
  split at h
  · rename_i c hc
    rw [hc] at hmem
    simp only [Option.some.injEq] at h
    simpa [h] using hmem
  · cases h

theorem inRange_sub_const {σ : V → ZMod p} {e : GExpr p V} (h : InRange rc σ e) (m : ZMod p) :
    InRange rc σ (e - const m) := inRange_mono h fun v hv => by
  rcases vars_sub_subset _ _ hv with h | h
  · exact h
  · simp [vars_const] at h

/-- The value found is the only one possible. -/
theorem findSolution_sound {fuel : ℕ} {expr rest : GExpr p V} {k c s : ZMod p}
    (h : findSolution rc fuel expr k rest c = .ok (some s)) {σ : V → ZMod p}
    (h1 : InRange rc σ expr) (h2 : InRange rc σ rest)
    (h0 : eval σ expr + k * eval σ rest + c = 0) : eval σ expr = s := by
  induction fuel generalizing expr rest c s with
  | zero => cases h
  | succ fuel ih =>
    unfold findSolution at h
    simp only at h
    split at h
    · cases h
    split at h
    · cases hr : findSolution rc fuel (expr - const (rangeConstraint rc expr).min) k rest
        (c + (rangeConstraint rc expr).min) with
      | error x => rw [hr] at h; cases h
      | ok o =>
        rw [hr] at h
        cases o with
        | none => cases h
        | some s' =>
          have he : eval σ (expr - const (rangeConstraint rc expr).min) =
              eval σ expr - (rangeConstraint rc expr).min := by
            rw [show expr - const (rangeConstraint rc expr).min =
              sub expr (const (rangeConstraint rc expr).min) from rfl, eval_sub, eval_const]
          have := ih hr (inRange_sub_const h1 _) h2 (by rw [he]; linear_combination h0)
          simp only [Except.map, Option.map_some, Except.ok.injEq, Option.some.injEq] at h
          rw [← h, ← this, he]
          ring
    split at h
    · have he : eval σ (rest - const (rangeConstraint rc rest).min) =
          eval σ rest - (rangeConstraint rc rest).min := by
        rw [show rest - const (rangeConstraint rc rest).min =
          sub rest (const (rangeConstraint rc rest).min) from rfl, eval_sub, eval_const]
      exact ih h h1 (inRange_sub_const h2 _) (by rw [he]; linear_combination h0)
    rename_i hm1 hm2
    simp only [ne_eq, not_not] at hm1 hm2
    split at h
    · cases h
    rename_i hwrap
    split at h
    · cases h
    rename_i h2k
    split at h
    · cases h
    simp only [Except.ok.injEq] at h
    have a1 := rangeConstraint_allows (inRange_vars h1)
    have a2 := rangeConstraint_allows (inRange_vars h2)
    have b1 : (eval σ expr).val ≤ (rangeConstraint rc expr).max.val := by
      have := a1.1
      unfold InCyc at this
      rwa [hm1, sub_zero, sub_zero] at this
    have b2 : (eval σ rest).val ≤ (rangeConstraint rc rest).max.val := by
      have := a2.1
      unfold InCyc at this
      rwa [hm2, sub_zero, sub_zero] at this
    have hkr : k.val * (eval σ rest).val ≤ k.val * (rangeConstraint rc rest).max.val :=
      Nat.mul_le_mul_left _ b2
    have hnat : (eval σ expr).val + k.val * (eval σ rest).val = (-c).val := by
      have hfield : eval σ expr + k * eval σ rest = -c := by linear_combination h0
      rw [← hfield, ZMod.val_add_of_lt, ZMod.val_mul_of_lt]
      · omega
      · rw [ZMod.val_mul_of_lt] <;> omega
    refine uniqueCandidate_eq h ?_ a1
    have hk : 0 < k.val := by omega
    have hmod : (-c).val % k.val = (eval σ expr).val % k.val := by
      rw [← hnat]; exact Nat.add_mul_mod_self_left _ _ _
    rw [hmod]
    by_cases hlt : (eval σ expr).val < k.val
    · left
      rw [Nat.mod_eq_of_lt hlt, ZMod.natCast_zmod_val]
    · right
      rw [Nat.mod_eq_sub_mod (by omega), Nat.mod_eq_of_lt (by omega), Nat.cast_sub (by omega),
        ZMod.natCast_zmod_val, ZMod.natCast_zmod_val]
      ring

/-- Two recursive calls suffice. -/
theorem findSolution_total (hp : p ≤ 2 ^ 64) {expr rest : GExpr p V} (hw1 : WF expr)
    (hw2 : WF rest) (k c : ZMod p) : ∃ o, findSolution rc 3 expr k rest c = .ok o := by
  have hlt : ∀ x : ZMod p, x.val < 2 ^ 64 := fun x => lt_of_lt_of_le (ZMod.val_lt x) hp
  -- with both lower ends zero, there is no recursion
  have base : ∀ (fuel : ℕ) (expr rest : GExpr p V) (c : ZMod p),
      (rangeConstraint rc expr).min = 0 → (rangeConstraint rc rest).min = 0 →
      ∃ o, findSolution rc (fuel + 1) expr k rest c = .ok o := by
    intro fuel expr rest c e1 e2
    unfold findSolution
    simp only [e1, e2, ne_eq, not_true_eq_false, if_false]
    split
    · exact ⟨_, rfl⟩
    split
    · exact ⟨_, rfl⟩
    split
    · exact ⟨_, rfl⟩
    split
    · rename_i h
      have := hlt (-c); have := hlt k
      omega
    · exact ⟨_, rfl⟩
  have step : ∀ (fuel : ℕ) (expr rest : GExpr p V) (c : ZMod p), WF rest →
      (rangeConstraint rc expr).min = 0 →
      ∃ o, findSolution rc (fuel + 2) expr k rest c = .ok o := by
    intro fuel expr rest c hw2 e1
    by_cases e2 : (rangeConstraint rc rest).min = 0
    · exact base (fuel + 1) expr rest c e1 e2
    · unfold findSolution
      simp only [e1, e2, ne_eq, not_true_eq_false, not_false_eq_true, if_false, if_true]
      split
      · exact ⟨_, rfl⟩
      · rename_i hw
        rw [RangeConstraint.unconstrained_width] at hw
        push Not at hw
        exact base fuel _ _ _ e1 (by rw [(rangeConstraint_shift hw2 hw.2 _).1, sub_self])
  by_cases e1 : (rangeConstraint rc expr).min = 0
  · exact step 1 expr rest c hw2 e1
  · unfold findSolution
    simp only [e1, ne_eq, not_false_eq_true, if_true]
    split
    · exact ⟨_, rfl⟩
    · rename_i hw
      rw [RangeConstraint.unconstrained_width] at hw
      push Not at hw
      obtain ⟨o, ho⟩ := step 0 (expr - const (rangeConstraint rc expr).min) rest
        (c + (rangeConstraint rc expr).min) hw2
        (by rw [(rangeConstraint_shift hw1 hw.1 _).1, sub_self])
      rw [ho]
      exact ⟨_, rfl⟩

/-! ### Components -/

/-- Value of a component. -/
def cval (σ : V → ZMod p) (c : Component p V) : ZMod p := c.coeff * eval σ c.expr

/-- Value of a list of components. -/
def csum (σ : V → ZMod p) (cs : List (Component p V)) : ZMod p := (cs.map (cval σ)).sum

theorem csum_nil (σ : V → ZMod p) : csum σ ([] : List (Component p V)) = 0 := rfl

theorem csum_cons (σ : V → ZMod p) (c : Component p V) (cs : List (Component p V)) :
    csum σ (c :: cs) = cval σ c + csum σ cs := rfl

theorem csum_append (σ : V → ZMod p) (a b : List (Component p V)) :
    csum σ (a ++ b) = csum σ a + csum σ b := by simp [csum]

theorem cval_normalize (σ : V → ZMod p) (c : Component p V) : cval σ c.normalize = cval σ c := by
  unfold Component.normalize
  split
  · rfl
  · simp [cval, eval_neg]

theorem isZero_spec {e : GExpr p V} : e.isZero = true ↔ e = mk [] [] 0 := by
  unfold isZero
  cases h : e.tryToKnown with
  | none => simp; rintro rfl; simp [tryToKnown] at h
  | some k =>
    rw [tryToKnown_eq_some] at h
    subst h
    simp

theorem cval_isZero (σ : V → ZMod p) {c : Component p V} (h : c.isZero = true) : cval σ c = 0 := by
  unfold Component.isZero at h
  simp only [Bool.or_eq_true, decide_eq_true_eq] at h
  rcases h with h | h
  · simp [cval, h]
  · rw [isZero_spec] at h
    unfold cval
    rw [h]
    have : eval σ (mk [] [] 0 : GExpr p V) = 0 := eval_const σ 0
    rw [this, mul_zero]

theorem csum_filter (σ : V → ZMod p) (cs : List (Component p V)) :
    csum σ (cs.filter fun c => !c.isZero) = csum σ cs := by
  induction cs with
  | nil => rfl
  | cons c cs ih =>
    rw [List.filter_cons]
    split
    · rw [csum_cons, csum_cons, ih]
    · rename_i h
      rw [csum_cons, ih, cval_isZero σ (by simpa using h), zero_add]

theorem csum_insert (σ : V → ZMod p) (c : Component p V) (cs : List (Component p V)) :
    csum σ (insertComponent c cs) = cval σ c + csum σ cs := by
  induction cs with
  | nil => rfl
  | cons d t ih =>
    unfold insertComponent
    split
    · rename_i h
      rw [csum_cons, csum_cons]
      unfold cval
      simp only
      rw [show d.expr + c.expr = add d.expr c.expr from rfl, eval_add, h]
      ring
    · split
      · rfl
      · rw [csum_cons, csum_cons, ih]; ring

theorem csum_group (σ : V → ZMod p) (cs : List (Component p V)) :
    csum σ (groupComponents cs) = csum σ cs := by
  unfold groupComponents
  rw [csum_filter]
  have : ∀ m : List (Component p V),
      csum σ ((cs.map Component.normalize).foldl (fun m c => insertComponent c m) m) =
        csum σ m + csum σ cs := by
    induction cs with
    | nil => intro m; simp [csum_nil]
    | cons c cs ih =>
      intro m
      rw [List.map_cons, List.foldl_cons, ih, csum_insert, cval_normalize, csum_cons]
      ring
  rw [this, csum_nil, zero_add]

/-- Invariant of components: well-formed, over the variables `S`, either zero or with nonzero
coefficient in the lower half. -/
def CompOk (S : V → Prop) (c : Component p V) : Prop := WF c.expr ∧ ∀ v ∈ vars c.expr, S v

theorem compOk_normalize {S : V → Prop} {c : Component p V} (h : CompOk S c) :
    CompOk S c.normalize := by
  unfold Component.normalize
  split
  · exact h
  · exact ⟨wf_neg h.1, by rw [vars_neg]; exact h.2⟩

theorem compOk_insert {S : V → Prop} {c : Component p V} {cs : List (Component p V)}
    (hc : CompOk S c) (hcs : ∀ d ∈ cs, CompOk S d) : ∀ d ∈ insertComponent c cs, CompOk S d := by
  induction cs with
  | nil => simpa [insertComponent] using hc
  | cons d t ih =>
    unfold insertComponent
    have hd := hcs d (by simp)
    have ht : ∀ d ∈ t, CompOk S d := fun d h => hcs d (by simp [h])
    split
    · intro x hx
      rw [List.mem_cons] at hx
      rcases hx with rfl | hx
      · exact ⟨wf_add hd.1 hc.1, vars_add_closed S _ _ hd.2 hc.2⟩
      · exact ht x hx
    · split
      · intro x hx
        rw [List.mem_cons] at hx
        rcases hx with rfl | hx
        · exact hc
        · exact hcs x hx
      · intro x hx
        rw [List.mem_cons] at hx
        rcases hx with rfl | hx
        · exact hd
        · exact ih ht x hx

theorem compOk_group {S : V → Prop} {cs : List (Component p V)} (h : ∀ c ∈ cs, CompOk S c) :
    ∀ c ∈ groupComponents cs, CompOk S c := by
  unfold groupComponents
  have : ∀ m : List (Component p V), (∀ c ∈ m, CompOk S c) →
      ∀ c ∈ (cs.map Component.normalize).foldl (fun m c => insertComponent c m) m, CompOk S c := by
    induction cs with
    | nil => intro m hm; exact hm
    | cons c cs ih =>
      intro m hm
      rw [List.map_cons, List.foldl_cons]
      exact ih (fun d hd => h d (by simp [hd])) _
        (compOk_insert (compOk_normalize (h c (by simp))) hm)
  intro c hc
  exact this [] (by simp) c (List.mem_of_mem_filter hc)

/-- The rest computed for a candidate. -/
theorem restComponents_spec {S : V → Prop} {k : ZMod p} (hk : k ≠ 0) {cs : List (Component p V)}
    (h : ∀ c ∈ cs, CompOk S c) :
    ∃ o, restComponents k cs = .ok o ∧ (∀ σ : V → ZMod p, k * csum σ o = csum σ cs) ∧
      (∀ c ∈ o, CompOk S c) ∧ (∀ c ∈ o, c.coeff ≠ 0 ∧ (2 < p → isInLowerHalf c.coeff = true)) := by
  induction cs with
  | nil => exact ⟨[], rfl, by simp [csum_nil], by simp, by simp⟩
  | cons c cs ih =>
    obtain ⟨o, ho, h1, h2, h3⟩ := ih fun d hd => h d (by simp [hd])
    have hc := h c (by simp)
    unfold restComponents
    split
    · rename_i hz
      exact ⟨o, ho, fun σ => by rw [csum_cons, cval_isZero σ hz, zero_add, h1], h2, h3⟩
    · rename_i hz
      have hc0 : c.coeff ≠ 0 := by
        intro h0; apply hz; simp [Component.isZero, h0]
      unfold Component.div
      rw [if_neg hk, ho]
      refine ⟨_, rfl, ?_, ?_, ?_⟩
      · intro σ
        rw [csum_cons, csum_cons, cval_normalize, mul_add, h1]
        congr 1
        unfold cval
        simp only
        field_simp
      · intro d hd
        rw [List.mem_cons] at hd
        rcases hd with rfl | hd
        · exact compOk_normalize (c := ⟨c.coeff * k⁻¹, c.expr⟩) hc
        · exact h2 d hd
      · intro d hd
        rw [List.mem_cons] at hd
        rcases hd with rfl | hd
        · have hne : c.coeff * k⁻¹ ≠ 0 := mul_ne_zero hc0 (inv_ne_zero hk)
          unfold Component.normalize
          split
          · rename_i hl; exact ⟨hne, fun _ => hl⟩
          · rename_i hl
            refine ⟨neg_ne_zero.2 hne, fun hp => ?_⟩
            simp only [isInLowerHalf, decide_eq_true_eq] at hl ⊢
            have hodd : p % 2 = 1 := (Fact.out : p.Prime).eq_two_or_odd.resolve_left (by omega)
            rw [val_neg_eq]
            have : (c.coeff * k⁻¹).val ≠ 0 := by rwa [Ne, ZMod.val_eq_zero]
            rw [if_neg this]
            have := ZMod.val_lt (c.coeff * k⁻¹)
            omega
        · exact h3 d hd

theorem restExpr_spec {S : V → Prop} {k : ZMod p} (hk : k ≠ 0) {cs : List (Component p V)}
    (h : ∀ c ∈ cs, CompOk S c) :
    ∃ o, restExpr k cs = .ok o ∧ (∀ σ : V → ZMod p, k * (o.map (eval σ)).sum = csum σ cs) ∧
      (∀ e ∈ o, WF e ∧ ∀ v ∈ vars e, S v) := by
  induction cs with
  | nil => exact ⟨[], rfl, by simp [csum_nil], by simp⟩
  | cons c cs ih =>
    obtain ⟨o, ho, h1, h2⟩ := ih fun d hd => h d (by simp [hd])
    have hc := h c (by simp)
    unfold restExpr Component.div
    rw [if_neg hk, ho]
    refine ⟨_, rfl, ?_, ?_⟩
    · intro σ
      rw [List.map_cons, List.sum_cons, csum_cons, mul_add, h1]
      congr 1
      unfold cval Component.toExpr
      simp only [eval_scale]
      field_simp
    · intro d hd
      rw [List.mem_cons] at hd
      rcases hd with rfl | hd
      · exact ⟨wf_scale _ hc.1, fun v hv => hc.2 v (vars_scale_subset _ _ hv)⟩
      · exact h2 d hd

theorem smallestCoeff_mem : ∀ {cs : List (Component p V)}, cs ≠ [] →
    ∃ c ∈ cs, smallestCoeff cs = c.coeff
  | [], h => absurd rfl h
  | [c], _ => ⟨c, by simp, rfl⟩
  | c :: d :: t, _ => by
    unfold smallestCoeff
    split
    · exact ⟨c, by simp, rfl⟩
    · obtain ⟨x, hx, h⟩ := smallestCoeff_mem (cs := d :: t) (by simp)
      exact ⟨x, List.mem_cons_of_mem _ hx, h⟩

theorem vars_foldl_add {S : V → Prop} {l : List (GExpr p V)} {a : GExpr p V}
    (ha : ∀ v ∈ vars a, S v) (hl : ∀ e ∈ l, ∀ v ∈ vars e, S v) :
    ∀ v ∈ vars (l.foldl add a), S v := by
  induction l generalizing a with
  | nil => exact ha
  | cons b t ih =>
    exact ih (vars_add_closed S _ _ ha (hl b (by simp))) fun e he => hl e (by simp [he])

theorem vars_sum_closed {S : V → Prop} {l : List (GExpr p V)} (hl : ∀ e ∈ l, ∀ v ∈ vars e, S v) :
    ∀ v ∈ vars (sum l), S v := vars_foldl_add (by simp [vars_zero]) hl

/-- State after the loop. -/
theorem splitLoop_spec {S : V → Prop} {fuel : ℕ} {done todo : List (Component p V)}
    {constant : ZMod p} {parts : List (GExpr p V)}
    (hd : ∀ c ∈ done, CompOk S c) (ht : ∀ c ∈ todo, CompOk S c)
    (hp : ∀ e ∈ parts, WF e ∧ ∀ v ∈ vars e, S v)
    {r : List (Component p V) × ZMod p × List (GExpr p V)}
    (h : splitLoop rc fuel done todo constant parts = .ok r) :
    (∀ c ∈ r.1, CompOk S c) ∧ (∀ e ∈ r.2.2, WF e ∧ ∀ v ∈ vars e, S v) ∧
    ∀ σ : V → ZMod p, (∀ v, S v → (rc v).Allows (σ v)) →
      (((∀ e ∈ parts, eval σ e = 0) ∧ csum σ (done ++ todo) + constant = 0) ↔
        ((∀ e ∈ r.2.2, eval σ e = 0) ∧ csum σ r.1 + r.2.1 = 0)) := by
  induction todo generalizing done constant parts with
  | nil =>
    cases h
    exact ⟨hd, hp, fun σ _ => by simp⟩
  | cons cand todo ih =>
    have hcand := ht cand (by simp)
    have ht' : ∀ c ∈ todo, CompOk S c := fun c hc => ht c (by simp [hc])
    have hdt : ∀ c ∈ done ++ todo, CompOk S c := fun c hc => by
      rcases List.mem_append.1 hc with h | h
      · exact hd c h
      · exact ht' c h
    unfold splitLoop at h
    cases hrest : restComponents cand.coeff (done ++ todo) with
    | error x => rw [hrest] at h; cases h
    | ok rest =>
      rw [hrest, ok_bind] at h
      split at h
      · cases h
        refine ⟨fun c hc => ?_, hp, fun σ _ => by simp⟩
        rcases List.mem_append.1 hc with h | h
        · exact hd c h
        · exact ht c h
      split at h
      · cases h
      rename_i hne hsm
      push Not at hsm
      cases hre : restExpr (smallestCoeff rest) rest with
      | error x => rw [hre] at h; cases h
      | ok restEs =>
        rw [hre, ok_bind] at h
        split at h
        · cases h
        rename_i hc0
        obtain ⟨rest', hr', hsum, hok, -⟩ := restComponents_spec hc0 hdt
        rw [hrest] at hr'
        cases hr'
        obtain ⟨es', he', hesum, heok⟩ := restExpr_spec hsm.1 hok
        rw [hre] at he'
        cases he'
        cases hf : findSolution rc fuel cand.expr (smallestCoeff rest) (sum restEs)
            (constant * cand.coeff⁻¹) with
        | error x => rw [hf] at h; cases h
        | ok o =>
          rw [hf, ok_bind] at h
          cases o with
          | none =>
            have := ih (done := done ++ [cand]) (fun c hc => by
              rcases List.mem_append.1 hc with h | h
              · exact hd c h
              · rw [List.mem_singleton] at h; exact h ▸ hcand) ht' hp h
            simpa using this
          | some s =>
            have := ih (done := done ++ [Component.zero]) (fun c hc => by
              rcases List.mem_append.1 hc with h | h
              · exact hd c h
              · rw [List.mem_singleton] at h
                subst h
                exact ⟨wf_zero, by simp [Component.zero, vars_zero]⟩) ht' (fun e he => by
              rcases List.mem_append.1 he with h | h
              · exact hp e h
              · rw [List.mem_singleton] at h
                subst h
                refine ⟨wf_sub hcand.1 (wf_const _), fun v hv => ?_⟩
                rcases vars_sub_subset _ _ hv with h | h
                · exact hcand.2 v h
                · simp [vars_const] at h) h
            refine ⟨this.1, this.2.1, fun σ hσ => ?_⟩
            rw [← this.2.2 σ hσ]
            have hev : eval σ (cand.expr - const s) = eval σ cand.expr - s := by
              rw [show cand.expr - const s = sub cand.expr (const s) from rfl, eval_sub, eval_const]
            have hsol : csum σ (done ++ cand :: todo) + constant = 0 → eval σ cand.expr = s := by
              intro h0
              refine findSolution_sound hf (inRange_of_vars fun v hv => hσ v (hcand.2 v hv))
                (inRange_of_vars fun v hv => hσ v
                  (vars_sum_closed (fun e he => (heok e he).2) v hv)) ?_
              rw [eval_sum, hesum]
              have h1 : cand.coeff * csum σ rest = csum σ (done ++ todo) := hsum σ
              rw [csum_append] at h1
              rw [csum_append, csum_cons] at h0
              unfold cval at h0
              have : cand.coeff * (eval σ cand.expr + csum σ rest + constant * cand.coeff⁻¹) = 0 := by
                have : cand.coeff * (constant * cand.coeff⁻¹) = constant := by field_simp
                rw [mul_add, mul_add, this, h1]
                linear_combination h0
              exact (mul_eq_zero.1 this).resolve_left hc0
            have hz : csum σ ((done ++ [Component.zero]) ++ todo) = csum σ done + csum σ todo := by
              simp only [csum_append, csum_cons, csum_nil]
              simp [cval, Component.zero]
            have ho : csum σ (done ++ cand :: todo) = csum σ done + csum σ todo +
                cand.coeff * eval σ cand.expr := by
              simp only [csum_append, csum_cons, cval]; ring
            rw [ho] at hsol
            rw [hz, ho]
            simp only [List.mem_append, List.mem_singleton]
            constructor
            · rintro ⟨h1, h2⟩
              have hs := hsol h2
              refine ⟨?_, ?_⟩
              · rintro e (he | rfl)
                · exact h1 e he
                · rw [hev, hs, sub_self]
              · rw [← hs]; linear_combination h2
            · rintro ⟨h1, h2⟩
              have := h1 (cand.expr - const s) (Or.inr rfl)
              rw [hev, sub_eq_zero] at this
              refine ⟨fun e he => h1 e (Or.inl he), ?_⟩
              rw [this]; linear_combination h2

theorem recombine_spec {S : V → Prop} {cs : List (Component p V)} (h : ∀ c ∈ cs, CompOk S c)
    (k : ZMod p) : (WF (recombine cs k) ∧ ∀ v ∈ vars (recombine cs k), S v) ∧
      ∀ σ : V → ZMod p, eval σ (recombine cs k) = 0 ↔ csum σ cs + k = 0 := by
  have hf : ∀ c ∈ cs.filter (fun c => !c.isZero), CompOk S c ∧ c.coeff ≠ 0 := fun c hc => by
    rw [List.mem_filter] at hc
    refine ⟨h c hc.1, fun h0 => ?_⟩
    simp [Component.isZero, h0] at hc
  have hs := fun σ => csum_filter (σ := σ) cs
  unfold recombine
  generalize cs.filter (fun c => !c.isZero) = fs at *
  have general : (WF (sum (fs.map Component.toExpr) + const k) ∧
      ∀ v ∈ vars (sum (fs.map Component.toExpr) + const k), S v) ∧
      ∀ σ : V → ZMod p, eval σ (sum (fs.map Component.toExpr) + const k) = 0 ↔
        csum σ cs + k = 0 := by
    have hw : ∀ e ∈ fs.map Component.toExpr, WF e ∧ ∀ v ∈ vars e, S v := by
      intro e he
      rw [List.mem_map] at he
      obtain ⟨c, hc, rfl⟩ := he
      exact ⟨wf_scale _ (hf c hc).1.1, fun v hv => (hf c hc).1.2 v (vars_scale_subset _ _ hv)⟩
    refine ⟨⟨wf_add (wf_sum fun e he => (hw e he).1) (wf_const _),
      vars_add_closed S _ _ (vars_sum_closed fun e he => (hw e he).2) (by simp [vars_const])⟩, ?_⟩
    intro σ
    rw [show sum (fs.map Component.toExpr) + const k =
      add (sum (fs.map Component.toExpr)) (const k) from rfl, eval_add, eval_const, eval_sum, ← hs σ]
    have : ((fs.map Component.toExpr).map (eval σ)).sum = csum σ fs := by
      unfold csum
      rw [List.map_map]
      congr 1
      apply List.map_congr_left
      intro c _
      simp [Component.toExpr, eval_scale, cval]
    rw [this]
  split
  · rename_i c
    obtain ⟨hc, hc0⟩ := hf c (by simp)
    refine ⟨⟨wf_add hc.1 (wf_const _), vars_add_closed S _ _ hc.2 (by simp [vars_const])⟩, ?_⟩
    intro σ
    rw [show c.expr + const (k * c.coeff⁻¹) = add c.expr (const (k * c.coeff⁻¹)) from rfl, eval_add,
      eval_const, ← hs σ, csum_cons, csum_nil, add_zero, cval]
    constructor
    · intro h
      have : c.coeff * (eval σ c.expr + k * c.coeff⁻¹) = 0 := by rw [h, mul_zero]
      rw [mul_add] at this
      have h2 : c.coeff * (k * c.coeff⁻¹) = k := by field_simp
      rwa [h2] at this
    · intro h
      have h2 : c.coeff * (k * c.coeff⁻¹) = k := by field_simp
      have : c.coeff * (eval σ c.expr + k * c.coeff⁻¹) = 0 := by rw [mul_add, h2, h]
      exact (mul_eq_zero.1 this).resolve_left hc0
  · exact general

theorem splitLoop_total (hp : p ≤ 2 ^ 64) (hp2 : 2 < p) {S : V → Prop}
    {done todo : List (Component p V)} {constant : ZMod p} {parts : List (GExpr p V)}
    (hd : ∀ c ∈ done, CompOk S c) (ht : ∀ c ∈ todo, CompOk S c ∧ c.coeff ≠ 0) :
    ∃ r, splitLoop rc 3 done todo constant parts = .ok r := by
  induction todo generalizing done constant parts with
  | nil => exact ⟨_, rfl⟩
  | cons cand todo ih =>
    have hcand := ht cand (by simp)
    have ht' : ∀ c ∈ todo, CompOk S c ∧ c.coeff ≠ 0 := fun c hc => ht c (by simp [hc])
    have hdt : ∀ c ∈ done ++ todo, CompOk S c := fun c hc => by
      rcases List.mem_append.1 hc with h | h
      · exact hd c h
      · exact (ht' c h).1
    unfold splitLoop
    obtain ⟨rest, hr, hsum, hok, hcoef⟩ := restComponents_spec hcand.2 hdt
    rw [hr, ok_bind]
    split
    · exact ⟨_, rfl⟩
    rename_i hne
    obtain ⟨c, hc, hsc⟩ := smallestCoeff_mem (cs := rest) (by simpa using hne)
    have hsm := hcoef c hc
    rw [← hsc] at hsm
    rw [if_neg (by simp [hsm.1, hsm.2 hp2])]
    obtain ⟨es, he, -, heok⟩ := restExpr_spec hsm.1 hok
    rw [he, ok_bind, if_neg hcand.2]
    obtain ⟨o, ho⟩ := findSolution_total (rc := rc) hp hcand.1.1
      (wf_sum fun e he => (heok e he).1) (smallestCoeff rest) (constant * cand.coeff⁻¹)
    rw [ho, ok_bind]
    cases o with
    | none =>
      exact ih (fun c hc => by
        rcases List.mem_append.1 hc with h | h
        · exact hd c h
        · rw [List.mem_singleton] at h; exact h ▸ hcand.1) ht'
    | some s =>
      exact ih (fun c hc => by
        rcases List.mem_append.1 hc with h | h
        · exact hd c h
        · rw [List.mem_singleton] at h
          subst h
          exact ⟨wf_zero, by simp [Component.zero, vars_zero]⟩) ht'

/-- The components a constraint starts with. -/
theorem components_spec {l : List (V × ZMod p)} :
    (∀ c ∈ groupComponents (l.map fun x => (⟨x.2, var x.1⟩ : Component p V)),
      CompOk (fun v => v ∈ l.map (·.1)) c) ∧
    ∀ σ : V → ZMod p, csum σ (groupComponents (l.map fun x => (⟨x.2, var x.1⟩ : Component p V))) =
      (l.map fun e => e.2 * σ e.1).sum := by
  constructor
  · apply compOk_group
    intro c hc
    rw [List.mem_map] at hc
    obtain ⟨x, hx, rfl⟩ := hc
    refine ⟨wf_var _, fun v hv => ?_⟩
    simp only [vars_var, List.mem_singleton] at hv
    exact List.mem_map.2 ⟨x, hx, hv.symm⟩
  · intro σ
    rw [csum_group]
    unfold csum cval
    rw [List.map_map]
    congr 1
    apply List.map_congr_left
    intro x _
    simp [eval_var]

theorem trySplit_spec {e : GExpr p V} {parts : List (GExpr p V)}
    (h : trySplit rc e = .ok (some parts)) :
    (∀ e' ∈ parts, WF e' ∧ ∀ v ∈ vars e', v ∈ vars e) ∧
    ∀ σ, InRange rc σ e → (eval σ e = 0 ↔ ∀ e' ∈ parts, eval σ e' = 0) := by
  unfold trySplit trySplitFuel at h
  split at h
  · cases h
  rename_i hq
  split at h
  · cases h
  simp only at h
  split at h
  · cases h
  rcases e with ⟨q, l, c⟩
  have hq' : q = [] := by simpa [isQuadratic, quadratic] using hq
  subst hq'
  simp only [linear, constant] at h
  obtain ⟨hok, hsum⟩ := components_spec (l := l)
  cases hr : splitLoop rc 3 [] (groupComponents (l.map fun x => (⟨x.2, var x.1⟩ : Component p V)))
      c [] with
  | error x => rw [hr] at h; cases h
  | ok r =>
    rw [hr, ok_bind] at h
    simp only [pure, Except.pure, Except.ok.injEq] at h
    split at h
    · cases h
    · simp only [Option.some.injEq] at h
      subst h
      obtain ⟨h1, h2, h3⟩ := splitLoop_spec (by simp) hok (by simp) hr
      obtain ⟨r1, r2⟩ := recombine_spec h1 r.2.1
      have hS : ∀ v, v ∈ l.map (·.1) → v ∈ vars (mk [] l c) := fun v hv => by
        rw [mem_vars_mk]
        obtain ⟨x, hx, rfl⟩ := List.mem_map.1 hv
        exact Or.inr ⟨x.2, hx⟩
      refine ⟨fun e' he' => ?_, fun σ hσ => ?_⟩
      · rcases List.mem_append.1 he' with h | h
        · exact ⟨(h2 e' h).1, fun v hv => hS v ((h2 e' h).2 v hv)⟩
        · rw [List.mem_singleton] at h
          subst h
          exact ⟨r1.1, fun v hv => hS v (r1.2 v hv)⟩
      · have := h3 σ fun v hv => inRange_vars hσ v (hS v hv)
        rw [List.nil_append, hsum] at this
        rw [eval_mk]
        simp only [List.map_nil, List.sum_nil, zero_add]
        simp only [List.not_mem_nil, false_implies, implies_true, true_and] at this
        rw [this]
        simp only [List.mem_append, List.mem_singleton]
        constructor
        · rintro ⟨a, b⟩ e' (he' | rfl)
          · exact a e' he'
          · exact (r2 σ).2 b
        · intro a
          exact ⟨fun e' he' => a e' (Or.inl he'), (r2 σ).1 (a _ (Or.inr rfl))⟩

theorem trySplit_total (hp : p ≤ 2 ^ 64) (hp2 : 2 < p) (e : GExpr p V) :
    ∃ o, trySplit rc e = .ok o := by
  unfold trySplit trySplitFuel
  split
  · exact ⟨_, rfl⟩
  split
  · exact ⟨_, rfl⟩
  simp only
  split
  · exact ⟨_, rfl⟩
  obtain ⟨hok, -⟩ := components_spec (l := e.linear)
  obtain ⟨r, hr⟩ := splitLoop_total (rc := rc) hp hp2 (done := []) (constant := e.constant)
    (parts := []) (by simp)
    (todo := groupComponents (e.linear.map fun x => (⟨x.2, var x.1⟩ : Component p V)))
    fun c hc => ⟨hok c hc, fun h0 => by
      unfold groupComponents at hc
      rw [List.mem_filter] at hc
      simp [Component.isZero, h0] at hc⟩
  rw [hr]
  exact ⟨_, rfl⟩

end Verif.Splitter
