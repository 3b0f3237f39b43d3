import Verif.Spec.OptimizerDegree
import Verif.Proofs.Optimizer

/-! Proofs about the degrees in the optimizer. -/

set_option linter.unusedSectionVars false

namespace Verif

open GExpr

variable {p : ℕ} {V : Type} [LinearOrder V] [Fact p.Prime]

/-! ### Expressions -/

theorem degree_of_isAffine {e : GExpr p V} (h : e.isAffine = true) : e.degree ≤ 1 := by
  obtain ⟨q, l, c⟩ := e
  have hq : q = [] := by
    cases q with
    | nil => rfl
    | cons a t => simp [isAffine, isQuadratic, quadratic] at h
  subst hq
  rw [degree_le_iff]
  exact ⟨by simp, fun _ => le_refl _⟩

theorem degree_sub_closed (d : ℕ) {a b : GExpr p V} (ha : degree a ≤ d) (hb : degree b ≤ d) :
    degree (sub a b) ≤ d := by
  unfold GExpr.sub
  exact degree_add_closed d _ _ ha (by rw [degree_neg]; exact hb)

theorem degree_substKnownMulti_le (a : List (V × ZMod p)) (e : GExpr p V) :
    degree (substKnownMulti a e) ≤ degree e := by
  unfold substKnownMulti
  induction a generalizing e with
  | nil => exact le_refl _
  | cons x t ih => exact (ih _).trans (degree_substKnown_le x.1 x.2 e)

theorem degree_toFactors (e : GExpr p V) : ((toFactors e).map degree).sum ≤ degree e := by
  induction e using ind with
  | h q l c ih =>
    unfold toFactors
    split
    · rename_i a b c' heq
      cases heq
      split
      · rw [List.map_append, List.sum_append]
        have h1 := (ih (a, b) (by simp)).1
        have h2 := (ih (a, b) (by simp)).2
        have h3 := (degree_le_iff.1 (Nat.le_refl (degree (mk [(a, b)] [] c)))).1 (a, b) (by simp)
        simp only at h1 h2 h3
        omega
      · simpa using degree_scale_le _ _
    · split <;> simp [degree_zero]
    · rename_i v d c' heq
      cases heq
      split
      · simp only [List.map_cons, List.map_nil, List.sum_cons, List.sum_nil, Nat.add_zero]
        have h3 := (degree_le_iff.1 (Nat.le_refl (degree (mk [] [(v, d)] c)))).2 (by simp)
        refine le_trans ?_ h3
        exact degree_of_isAffine (by rfl)
      · simpa using degree_scale_le _ _
    · rename_i heq
      cases heq
      simpa using degree_scale_le _ _

theorem sum_eraseDups_le {α : Type} [DecidableEq α] (f : α → ℕ) (l : List α) :
    (l.eraseDups.map f).sum ≤ (l.map f).sum := by
  have h : l.eraseDups.Subperm l := (nodup_eraseDups l).subperm fun x hx => mem_eraseDups'.1 hx
  obtain ⟨l', h1, h2⟩ := h
  rw [← (h1.map f).sum_eq]
  exact (h2.map f).sum_le_sum (by simp)

theorem degree_foldl_mul (l : List (GExpr p V)) (e : GExpr p V) :
    degree (l.foldl mul e) ≤ degree e + (l.map degree).sum := by
  induction l generalizing e with
  | nil => simp
  | cons a t ih =>
    rw [List.foldl_cons, List.map_cons, List.sum_cons]
    have h1 := ih (mul e a)
    have h2 := degree_mul_le e a
    omega

theorem degree_productOf {l : List (GExpr p V)} {e : GExpr p V} (h : productOf l = .ok e) :
    degree e ≤ (l.map degree).sum := by
  cases l with
  | nil => cases h
  | cons f t =>
    cases h
    rw [List.map_cons, List.sum_cons]
    exact degree_foldl_mul t f

/-! ### The passes -/

variable {n k : ℕ}

theorem degrees_filter {s : ConstraintSystem p V} (h : s.Degrees n k) {q : GExpr p V → Bool}
    {q' : BusInteraction (GExpr p V) → Bool} {d : List (DerivedVariable p V)} :
    (⟨s.algebraic.filter q, s.bus.filter q', d⟩ : ConstraintSystem p V).Degrees n k :=
  ⟨fun e he => h.algebraic e (List.mem_filter.1 he).1, fun b hb => h.bus b (List.mem_filter.1 hb).1⟩

/-- Fields are replaced, and equalities of fields added. -/
theorem degrees_fields (hk : k ≤ n) {s : ConstraintSystem p V} (h : s.Degrees n k)
    (f : GExpr p V → GExpr p V × List (GExpr p V))
    (hf : ∀ e d, degree e ≤ d → degree (f e).1 ≤ d ∧ ∀ q ∈ (f e).2, degree q ≤ d) :
    ({ s with
      bus := s.bus.map fun b => b.map fun e => (f e).1
      algebraic := s.algebraic ++ (s.bus.flatMap fun b => b.fields.map f).flatMap Prod.snd } :
      ConstraintSystem p V).Degrees n k := by
  constructor
  · intro e he
    rcases List.mem_append.1 he with he | he
    · exact h.algebraic e he
    · obtain ⟨y, hy, he⟩ := List.mem_flatMap.1 he
      obtain ⟨b, hb, hy⟩ := List.mem_flatMap.1 hy
      obtain ⟨e', he', rfl⟩ := List.mem_map.1 hy
      exact (hf e' n ((h.bus b hb e' he').trans hk)).2 e he
  · intro b hb e he
    obtain ⟨b', hb', rfl⟩ := List.mem_map.1 hb
    rw [fields_map] at he
    obtain ⟨e', he', rfl⟩ := List.mem_map.1 he
    exact (hf e' k (h.bus b' hb' e' he')).1

theorem degrees_mapExpr {s : ConstraintSystem p V} (h : s.Degrees n k) {f : GExpr p V → GExpr p V}
    (hf : ∀ e, degree (f e) ≤ degree e) : (s.mapExpr f).Degrees n k := by
  constructor
  · intro e he
    obtain ⟨e', he', rfl⟩ := List.mem_map.1 he
    exact (hf e').trans (h.algebraic e' he')
  · intro b hb e he
    obtain ⟨b', hb', rfl⟩ := List.mem_map.1 hb
    rw [fields_map] at he
    obtain ⟨e', he', rfl⟩ := List.mem_map.1 he
    exact (hf e').trans (h.bus b' hb' e' he')

theorem degrees_mapExprs {s : ConstraintSystem p V} (h : s.Degrees n k) {f : GExpr p V → GExpr p V}
    (hf : ∀ e, degree (f e) ≤ degree e) : (s.mapExprs f).Degrees n k := by
  constructor
  · intro e he
    obtain ⟨e', he', rfl⟩ := List.mem_map.1 he
    exact (hf e').trans (h.algebraic e' he')
  · intro b hb e he
    obtain ⟨b', hb', rfl⟩ := List.mem_map.1 hb
    rw [fields_map] at he
    obtain ⟨e', he', rfl⟩ := List.mem_map.1 he
    exact (hf e').trans (h.bus b' hb' e' he')

theorem degree_subst_affine (x : V) {s : GExpr p V} (hs : degree s ≤ 1) (e : GExpr p V) :
    degree (subst x s e) ≤ degree e := by
  have := degree_subst_le x s e
  have h1 : Nat.max 1 (degree s) = 1 := Nat.max_eq_left hs
  rwa [h1, Nat.mul_one] at this

theorem degrees_solverBased (hk : k ≤ n) {h : Handler p} {ch : Choices p V} {ix : Indexed p V}
    (hi : ix.Inv) {solver solver' : Solver p V} {s' : ConstraintSystem p V} {l : List (V × GExpr p V)}
    (hd : ix.sys.Degrees n k) (hr : solverBased h ch ix solver = .ok (s', l, solver')) :
    s'.Degrees n k := by
  have hl : ∀ x ∈ l, x.2.isAffine = true := by
    unfold solverBased at hr
    cases h1 : SolverOp.run h solver (.solve ch) with
    | error x => rw [h1] at hr; cases hr
    | ok r =>
      obtain ⟨out, sv⟩ := r
      rw [h1, Solver.stop_bind] at hr
      cases out with
      | unit => cases hr
      | different d => cases hr
      | assignments l' =>
        simp only at hr
        split at hr
        · cases hr
        · rename_i hn
          cases hr
          intro x hx
          by_contra hx'
          exact hn (List.any_eq_true.2 ⟨x, hx, by simpa using hx'⟩)
  obtain ⟨-, rfl⟩ := solverBased_ok hr
  have h1 : (ix.applySubsts l).sys.Degrees n k := by
    rw [applySubsts_sys hi]
    clear hr
    generalize ix.sys = s at hd
    induction l generalizing s with
    | nil => exact hd
    | cons x t ih =>
      rw [List.foldl_cons]
      exact ih (fun y hy => hl y (List.mem_cons_of_mem _ hy)) _ (degrees_mapExpr hd
        (degree_subst_affine x.1 (degree_of_isAffine (hl x List.mem_cons_self))))
  refine degrees_fields hk h1 _ fun e d he => ?_
  unfold numberField
  split
  · rename_i m hm
    unfold tryReplaceByNumber at hm
    split at hm
    · cases hm
    · obtain ⟨v, -, rfl⟩ := Option.map_eq_some_iff.1 hm
      refine ⟨by rw [degree_const]; exact Nat.zero_le _, fun q hq => ?_⟩
      rw [List.mem_singleton.1 hq]
      exact degree_sub_closed d (by rw [degree_const]; exact Nat.zero_le _) he
  · exact ⟨he, by simp⟩

theorem degrees_substituteBusFields (hk : k ≤ n) {solver : Solver p V} {s : ConstraintSystem p V}
    (h : s.Degrees n k) : (substituteBusFields solver s).Degrees n k := by
  refine degrees_fields hk h _ fun e d he => ?_
  unfold constantField
  split
  · exact ⟨he, by simp⟩
  · split
    · refine ⟨by rw [degree_const]; exact Nat.zero_le _, fun q hq => ?_⟩
      rw [List.mem_singleton.1 hq]
      exact degree_sub_closed d he (by rw [degree_const]; exact Nat.zero_le _)
    · exact ⟨he, by simp⟩

theorem simplify_fold_degree {as : List (List (V × ZMod p))} {xs : List (Simplified p V)}
    (hxs : ∀ x ∈ xs, ∀ s, x.simplified = some (some s) → degree s ≤ degree x.expr) :
    ∀ x ∈ as.foldl simplifyUnder xs, ∀ s, x.simplified = some (some s) →
      degree s ≤ degree x.expr := by
  induction as generalizing xs with
  | nil => exact hxs
  | cons a t ih =>
    refine ih fun x hx => ?_
    rcases simplifyUnder_mem hx with hx | ⟨y, hy, rfl⟩
    · exact hxs x hx
    · intro s hs
      rw [(update_expr _ y).1, (update_some hs).1]
      exact degree_substKnownMulti_le a y.expr

theorem simplifiedInit_none (refs : List (ConstraintRef p V)) :
    ∀ x ∈ simplifiedInit refs, x.simplified = none := by
  unfold simplifiedInit
  generalize refs.flatMap ConstraintRef.exprs = l
  have key : ∀ acc : List (Simplified p V), (∀ x ∈ acc, x.simplified = none) →
      ∀ x ∈ l.foldl (fun acc x => insertSimplified x.1 x.2 acc) acc, x.simplified = none := by
    induction l with
    | nil => exact fun acc h => h
    | cons y t ih =>
      intro acc h
      rw [List.foldl_cons]
      exact ih _ (mem_insertSimplified h rfl fun x hx _ => hx)
  exact key [] (by simp)

theorem allSubstitutions_degree {ix : Indexed p V} {rc : V → RangeConstraint p} {vss : List (List V)}
    {acc subs : List (GExpr p V × GExpr p V)} (h : allSubstitutions ix rc vss acc = .ok subs)
    (hacc : ∀ x ∈ acc, degree x.2 ≤ degree x.1) : ∀ x ∈ subs, degree x.2 ≤ degree x.1 := by
  induction vss generalizing acc with
  | nil => rw [allSubstitutions] at h; cases h; exact hacc
  | cons vs t ih =>
    rw [allSubstitutions, Except.bind_ok_iff] at h
    obtain ⟨l, h1, h⟩ := h
    refine ih h fun x hx => ?_
    rcases mem_foldl_mapInsert hx with hx | hx
    · unfold substitutionsFor at h1
      rw [Except.bind_ok_iff] at h1
      obtain ⟨refs, -, h1⟩ := h1
      rw [Except.bind_ok_iff] at h1
      obtain ⟨as, -, h1⟩ := h1
      cases h1
      obtain ⟨y, hy, hyx⟩ := List.mem_filterMap.1 hx
      split at hyx
      · rename_i s hs
        split at hyx
        · cases hyx
          refine simplify_fold_degree (fun z hz s hs => ?_) y hy s hs
          rw [simplifiedInit_none refs z hz] at hs
          cases hs
        · cases hyx
      · cases hyx
    · exact hacc x hx

theorem degrees_simplifyExhaustive (hk : k ≤ n) {ix : Indexed p V} {rc : V → RangeConstraint p}
    {s' : ConstraintSystem p V} (hd : ix.sys.Degrees n k) (h : simplifyExhaustive ix rc = .ok s') :
    s'.Degrees n k := by
  obtain ⟨subs, h1, rfl | rfl⟩ := simplifyExhaustive_ok h
  · exact hd
  · have hs := allSubstitutions_degree h1 (fun x hx => by cases hx)
    have hf : ∀ e d, degree e ≤ d → degree (replaceField subs e).1 ≤ d ∧
        ∀ q ∈ (replaceField subs e).2, degree q ≤ d := by
      intro e d he
      unfold replaceField
      split
      · rename_i s hg
        have := (hs _ (mapGet_mem hg)).trans he
        exact ⟨this, fun q hq => by
          rw [List.mem_singleton.1 hq]; exact degree_sub_closed d he this⟩
      · exact ⟨he, by simp⟩
    have hc : ∀ e d, degree e ≤ d → degree (replaceConstraint subs e).1 ≤ d ∧
        ∀ q ∈ (replaceConstraint subs e).2, degree q ≤ d := by
      intro e d he
      unfold replaceConstraint
      split
      · rename_i s hg
        split
        · exact ⟨he, by simp⟩
        · have := (hs _ (mapGet_mem hg)).trans he
          exact ⟨this, fun q hq => by
            rw [List.mem_singleton.1 hq]; exact degree_sub_closed d he this⟩
      · exact ⟨he, by simp⟩
    refine ⟨fun e he => ?_, fun b hb => ?_⟩
    · rcases List.mem_append.1 he with he | he
      · obtain ⟨y, hy, rfl⟩ := List.mem_map.1 he
        obtain ⟨e', he', rfl⟩ := List.mem_map.1 hy
        exact (hc e' n (hd.algebraic e' he')).1
      · rw [mem_eraseDups', List.mem_flatMap] at he
        obtain ⟨y, hy, he⟩ := he
        rcases List.mem_append.1 hy with hy | hy
        · obtain ⟨e', he', rfl⟩ := List.mem_map.1 hy
          exact (hc e' n (hd.algebraic e' he')).2 e he
        · obtain ⟨b, hb, hy⟩ := List.mem_flatMap.1 hy
          obtain ⟨e', he', rfl⟩ := List.mem_map.1 hy
          exact (hf e' n ((hd.bus b hb e' he').trans hk)).2 e he
    · obtain ⟨b', hb', rfl⟩ := List.mem_map.1 hb
      intro e he
      rw [fields_map] at he
      obtain ⟨e', he', rfl⟩ := List.mem_map.1 he
      exact (hf e' k (hd.bus b' hb' e' he')).1

theorem duplicateFactorsLoop_degree {l : List (GExpr p V)}
    {r : List (GExpr p V) × List (GExpr p V)} (h : duplicateFactorsLoop l = .ok r)
    (hl : ∀ e ∈ l, degree e ≤ n) : ∀ e ∈ r.1 ++ r.2, degree e ≤ n := by
  induction l generalizing r with
  | nil => rw [duplicateFactorsLoop] at h; cases h; simp
  | cons e t ih =>
    obtain ⟨-, k, a, ht, hr⟩ := duplicateFactorsLoop_cons h
    have he := hl e List.mem_cons_self
    have ih' := ih ht fun e he => hl e (List.mem_cons_of_mem _ he)
    simp only [List.mem_append] at ih'
    rcases hr with ⟨product, -, hp, rfl⟩ | ⟨-, rfl⟩
    · intro x hx
      simp only [List.mem_append, List.mem_cons] at hx
      rcases hx with hx | rfl | hx
      · exact ih' x (Or.inl hx)
      · exact ((degree_productOf hp).trans (sum_eraseDups_le degree _)).trans
          ((degree_toFactors e).trans he)
      · exact ih' x (Or.inr hx)
    · intro x hx
      simp only [List.mem_append, List.mem_cons] at hx
      rcases hx with (rfl | hx) | hx
      · exact he
      · exact ih' x (Or.inl hx)
      · exact ih' x (Or.inr hx)

theorem degrees_trivial {f : ZMod p → Bool} {s s' : ConstraintSystem p V} (hd : s.Degrees n k)
    (h : trivialSimplifications f s = .ok s') : s'.Degrees n k := by
  unfold trivialSimplifications at h
  simp only at h
  rw [Except.bind_ok_iff] at h
  obtain ⟨s1, h1, h⟩ := h
  cases h
  unfold removeRedundant at h1
  rw [Except.bind_ok_iff] at h1
  obtain ⟨s2, h2, h1⟩ := h1
  obtain ⟨r, h3, rfl⟩ := removeDuplicateFactors_ok h2
  simp only at h1
  split at h1
  · cases h1
  · rw [Except.bind_ok_iff] at h1
    obtain ⟨red, -, h1⟩ := h1
    cases h1
    constructor
    · intro e he
      obtain ⟨x, hx, rfl⟩ := List.mem_map.1 he
      refine duplicateFactorsLoop_degree h3 (fun e he => hd.algebraic e (List.mem_filter.1 he).1) _ ?_
      exact (List.mem_zipIdx' (List.mem_filter.1 hx).1).2 ▸ List.getElem_mem _
    · intro b hb
      exact hd.bus b (List.mem_filter.1 ((retainUnseen_sublist f _ _).subset hb)).1

theorem degrees_applyAction {st : DriverState p V} (h : st.system.Degrees n k) (a : RuleAction p V) :
    (applyAction st a).system.Degrees n k := by
  cases a with
  | updateRange v rc =>
    simp only [applyAction]
    split
    · split
      · exact degrees_mapExprs h (degree_substKnown_le _ _)
      · exact h
    · exact h
  | substituteByConstant v val => exact degrees_mapExprs h (degree_substKnown_le _ _)
  | substituteByVariable v w =>
    exact degrees_mapExprs h (degree_subst_affine v (degree_of_isAffine (by rfl)))

theorem degrees_batch {s : ConstraintSystem p V} (h : s.Degrees n k) (rs : List (ReplacementAction p V))
    {bound : Option DegreeBound} (hb : ∀ b, bound = some b → b.identities ≤ n) :
    (batchReplace s rs bound).2.Degrees n k := by
  constructor
  · intro e he
    cases bound with
    | none => exact C30_degree_does_not_grow s rs n h.algebraic e he
    | some b =>
      rcases C30_degree_within_bound s rs b e he with h' | h'
      · exact h.algebraic e h'
      · exact h'.trans (hb b rfl)
  · intro b hb'
    rw [(C30_rest_unchanged s rs bound).1] at hb'
    exact h.bus b hb'

theorem degrees_driver {rc : V → RangeConstraint p} {h : Handler p}
    {lt : GExpr p V → GExpr p V → Prop} {intBits : ℕ} {bound : Option DegreeBound}
    {ok : RuleInput p V → ConstraintSystem p V → ConstraintSystem p V → Prop} {st st' : DriverState p V}
    {news : List (DerivedVariable p V)} (hb : ∀ b, bound = some b → b.identities ≤ n)
    (h0 : st.system.Degrees n k)
    (run : DriverRun rc h lt intBits bound ok st st' news) : st'.system.Degrees n k := by
  induction run with
  | refl => exact h0
  | round run new inp hinp hnew actions hactions rs hrs hok ih =>
    have key : ∀ (as : List (RuleAction p V)) (st : DriverState p V), st.system.Degrees n k →
        (as.foldl applyAction st).system.Degrees n k := by
      intro as
      induction as with
      | nil => exact fun _ h => h
      | cons a t ih => exact fun st h => ih _ (degrees_applyAction h a)
    have := key actions _ ih
    exact degrees_batch (s := beforeBatch _ actions new) ⟨this.algebraic, this.bus⟩ rs hb

theorem degrees_finish {st : DriverState p V} (h : st.system.Degrees n k) :
    st.finish.system.Degrees n k :=
  ⟨fun e he => h.algebraic e (List.mem_filter.1 he).1, h.bus⟩

theorem degrees_memory (hk : k ≤ n) {bus : Bus p} {h : Handler p} (hs : h.Sound bus)
    {A : (V → ZMod p) → Prop} {id : Option ℕ} {s s' : ConstraintSystem p V} {solver solver' : Solver p V}
    (hw : s.WF) (hm : solver.MadeFor bus h A) (hd : s.Degrees n k)
    (hr : optimizeMemory h id s solver = .ok (s', solver')) : s'.Degrees n k := by
  cases id with
  | none => cases hr; exact hd
  | some id =>
    obtain ⟨P, -, hP, -, -, -, rfl⟩ := optimizeMemory_ok hs hw hm hr
    have key : ∀ {b : BusInteraction (GExpr p V)} {m : MemInt p V} {i : ℕ}, s.bus[i]? = some b →
        memConversion id b = .ok (.memory m) →
        (∀ e ∈ m.data, degree e ≤ n) ∧ degree m.timestamp ≤ n := by
      intro b m i hb hc
      have hbd := hd.bus b (List.mem_of_getElem? hb)
      have hp := (memConversion_memory hc).2.2
      have : ∀ e ∈ b.payload, degree e ≤ n := fun e he =>
        (hbd e (by simp [BusInteraction.fields, he])).trans hk
      rw [hp] at this
      exact ⟨fun e he => this e (by simp [he]), this _ (by simp)⟩
    refine ⟨fun e he => ?_, fun b hb => ?_⟩
    · rcases List.mem_append.1 he with he | he
      · exact hd.algebraic e he
      · obtain ⟨x, hx, he⟩ := List.mem_flatMap.1 he
        obtain ⟨b, b1, b2⟩ := (hP x hx).set
        obtain ⟨c, c1, c2⟩ := (hP x hx).get
        have k1 := key b1 b2
        have k2 := key c1 c2
        rcases List.mem_append.1 he with he | he
        · obtain ⟨y, hy, rfl⟩ := List.mem_map.1 he
          exact degree_sub_closed n (k1.1 _ (List.of_mem_zip hy).1) (k2.1 _ (List.of_mem_zip hy).2)
        · rw [List.mem_singleton.1 he]
          exact degree_sub_closed n k1.2 k2.2
    · obtain ⟨x, hx, rfl⟩ := List.mem_map.1 hb
      exact hd.bus _ ((List.mem_zipIdx' (List.mem_filter.1 hx).1).2 ▸ List.getElem_mem _)

theorem lowDegreeLoop_busDegree {h : Handler p} {isStateful : ZMod p → Bool} {rh : RangeHandler p V}
    (hrh : rh.KeepsDegree) {bound : DegreeBound} {solver : Solver p V} :
    ∀ {bs : List (BusInteraction (GExpr p V))}
      {o : List (BusInteraction (GExpr p V)) × List (GExpr p V)},
      lowDegreeLoop h rh isStateful bound solver bs = .ok o →
      (∀ b ∈ bs, ∀ e ∈ b.fields, degree e ≤ k) → ∀ b ∈ o.1, ∀ e ∈ b.fields, degree e ≤ k := by
  intro bs
  induction bs with
  | nil => intro o ho; cases ho; simp
  | cons b t ih =>
    intro o ho hb
    obtain ⟨rest, hrest, hcase⟩ := lowDegreeLoop_cons ho
    have ih' := ih hrest fun b h => hb b (List.mem_cons_of_mem _ h)
    rcases hcase with rfl | ⟨r, f, g, made, hr, hmade, rfl⟩
    · intro x hx
      rcases List.mem_cons.1 hx with rfl | hx
      · exact hb x List.mem_cons_self
      · exact ih' x hx
    · intro x hx
      rcases List.mem_append.1 hx with hx | hx
      · cases made with
        | none => rw [List.mem_singleton.1 hx]; exact hb b List.mem_cons_self
        | some made =>
          refine hrh _ _ hmade k ?_ x hx
          intro y hy
          rw [hr.ranges] at hy
          obtain ⟨z, hz, rfl⟩ := List.mem_map.1 hy
          exact hb b List.mem_cons_self _ (List.mem_cons_of_mem _ (List.mem_cons_of_mem _
            (List.mem_of_getElem? (hr.fn.ins z hz).1)))
      · exact ih' x hx

theorem degrees_lowDegree {h : Handler p} {rh : RangeHandler p V} (hrh : rh.KeepsDegree)
    {isStateful : ZMod p → Bool} {bound : DegreeBound} (hbound : bound.identities ≤ n)
    {s s' : ConstraintSystem p V} {solver solver' : Solver p V} (hd : s.Degrees n k)
    (ho : lowDegreeOptimize h rh isStateful bound s solver = .ok (s', solver')) :
    s'.Degrees n k := by
  obtain ⟨r, out, h1, h2, rfl⟩ := lowDegreeOptimize_ok ho
  refine ⟨fun e he => ?_, lowDegreeLoop_busDegree hrh h1 hd.bus⟩
  rcases List.mem_append.1 he with he | he
  · exact hd.algebraic e he
  · exact (lowDegreeLoop_degree h1 e he).trans hbound

theorem degrees_ranges {bus : Bus p} {w : ℕ} {h : Handler p} {rh : RangeHandler p V}
    (hrh : rh.KeepsDegree) {ch : Choices p V} {bound : DegreeBound} (hbound : bound.identities ≤ n)
    {s s' : ConstraintSystem p V} (he : rh.Exact bus w s.bus) (hd : s.Degrees n k)
    (ho : optimizeRangeConstraints h rh ch bound s = .ok s') : s'.Degrees n k := by
  have halg := C34_degree h rh ch bound s s' ho
  refine ⟨fun e he => (halg e he).elim (hd.algebraic e) fun h => h.trans hbound, ?_⟩
  obtain ⟨kept, rcs, solver, made, h1, -, h3, -, rfl⟩ := optimizeRangeConstraints_ok ho
  obtain ⟨c1, c2, c3⟩ := collectPure_spec h1
  intro b hb
  rcases List.mem_append.1 hb with hb | hb
  · exact hd.bus b (c1 b hb)
  · refine hrh _ _ h3 k ?_ b hb
    intro x hx
    have hx := (List.mem_filter.1 (List.mem_filter.1 hx).1).1
    obtain ⟨e, he', rfl⟩ := List.mem_map.1 hx
    obtain ⟨x, hx', rfl⟩ := List.mem_map.1 (List.mem_dedup.1 (List.mem_reverse.1 he')
      |> List.mem_reverse.1)
    obtain ⟨b, hb, hm, r, hp, hxr⟩ := c3 x hx'
    exact hd.bus b hb _ (List.mem_cons_of_mem _ (List.mem_cons_of_mem _
      (he.shape b hb hm r hp x hxr).1))

/-! ### Rounds and runs -/

theorem ConstraintRound.degrees [Fintype V] (hV : Fintype.card V ≤ p) {c : OptimizerConfig p V}
    {bus : Bus p} (hc : c.Correct bus) {A : (V → ZMod p) → Prop} {m m' : Memory p}
    {s0 s s' : ConstraintSystem p V} (h : Stage c bus A m m' s0 s) {solver solver' : Solver p V}
    (hm : solver.MadeFor bus c.handler A)
    {ok : RuleInput p V → ConstraintSystem p V → ConstraintSystem p V → Prop}
    (hcmp : ∀ σ, A σ → ComparisonsRight σ ok)
    (r : ConstraintRound c ok s solver s' solver')
    (hnews : ∀ σ, A σ → ∀ d ∈ r.new7, d.Computed σ) (hk : k ≤ n) (hn : c.bound.identities ≤ n)
    (hrh : c.rangeHandler.KeepsDegree) (hd : s.Degrees n k) : s'.Degrees n k := by
  obtain ⟨-, -, -, -, -, -, -, m7, g8, -, -, -⟩ := r.stages hV hc h hm hcmp hnews
  have d1 : r.s1.Degrees n k := degrees_solverBased hk (Indexed.inv_history _ _)
    (by have := r.ix0.sys; rw [← this] at hd; exact hd) r.step1
  have d2 : (removeTrivial r.s1).Degrees n k := degrees_filter d1
  have d3 : r.s3.Degrees n k := by
    obtain ⟨delete, -, -, -, h4⟩ := removeFree_ok r.step3
    rw [h4]
    exact degrees_filter (by rw [IndexOf.eq]; exact d2)
  have d4 : r.s4.Degrees n k := by
    obtain ⟨keep, -, -, -, h4⟩ := removeDisconnected_ok (Indexed.inv_history _ _) r.step4
    rw [h4]
    exact degrees_filter (by rw [r.ix3.sys]; exact d3)
  have d5 : r.s5.Degrees n k := degrees_simplifyExhaustive hk (by rw [IndexOf.eq]; exact d4) r.step5
  have d6 : r.s6.Degrees n k := degrees_trivial d5 r.step6
  have d7 : r.st.finish.system.Degrees n k :=
    degrees_finish (degrees_driver (fun _ hb => by cases hb) d6 r.step7)
  have d9 : r.s9.Degrees n k := degrees_memory hk hc.handler g8.wf m7
    (degrees_substituteBusFields hk d7) r.step9
  exact degrees_lowDegree hrh hn d9 r.step10

theorem OptimizeLoop.degrees [Fintype V] (hV : Fintype.card V ≤ p) {c : OptimizerConfig p V}
    {bus : Bus p} (hc : c.Correct bus) {A : (V → ZMod p) → Prop} {m m' : Memory p}
    {s0 : ConstraintSystem p V}
    {ok : RuleInput p V → ConstraintSystem p V → ConstraintSystem p V → Prop}
    (hcmp : ∀ σ, A σ → ComparisonsRight σ ok)
    {s s' : ConstraintSystem p V} {solver solver' : Solver p V}
    (l : OptimizeLoop c ok s solver s' solver') (h : Stage c bus A m m' s0 s)
    (hm : solver.MadeFor bus c.handler A) (hnews : ∀ σ, A σ → ∀ d ∈ l.news, d.Computed σ)
    (hk : k ≤ n) (hn : c.bound.identities ≤ n)
    (hrh : c.rangeHandler.KeepsDegree) (hd : s.Degrees n k) : s'.Degrees n k := by
  induction l with
  | one r => exact r.degrees hV hc h hm hcmp hnews hk hn hrh hd
  | more r rest ih =>
    have hn1 : ∀ σ, A σ → ∀ d ∈ r.new7, d.Computed σ :=
      fun σ hσ d hd => hnews σ hσ d (List.mem_append.2 (Or.inl hd))
    obtain ⟨-, -, -, -, -, -, -, -, -, -, h1, h2⟩ := r.stages hV hc h hm hcmp hn1
    exact ih h1 h2 (fun σ hσ d hd => hnews σ hσ d (List.mem_append.2 (Or.inr hd)))
      (r.degrees hV hc h hm hcmp hn1 hk hn hrh hd)

theorem OptimizePasses.degrees [Fintype V] (hV : Fintype.card V ≤ p) {c : OptimizerConfig p V}
    {bus : Bus p} (hc : c.Correct bus) {s s' : ConstraintSystem p V} (hw : s.WF)
    {ok : RuleInput p V → ConstraintSystem p V → ConstraintSystem p V → Prop}
    (r : OptimizePasses c ok s s') {w : ℕ}
    (he : c.rangeHandler.Exact bus w r.st.finish.system.bus)
    (hk : k ≤ n) (hn : c.bound.identities ≤ n) (hkb : c.bound.busInteractions ≤ k)
    (hrh : c.rangeHandler.KeepsDegree) (hd : s.Degrees n k) : s'.Degrees n k := by
  have h : Stage c bus (fun _ => False) (fun _ => none) (fun _ => none) s s :=
    ⟨hw, fun _ hf => hf.elim, fun _ hf => hf.elim, fun _ hf => hf.elim, fun _ hf => hf.elim⟩
  obtain ⟨m0, g1, -⟩ := r.stages hV hc h (fun _ hf => hf.elim) (fun _ hf => hf.elim) he
  have d1 : r.s1.Degrees n k := r.loop.degrees hV hc (fun _ hf => hf.elim) h m0
    (fun _ hf => hf.elim) hk hn hrh hd
  have d2 : r.ix2.sys.Degrees n k := by
    have hw1 : (indexedHistory r.ix1.base r.ix1.ops).sys.WF := by rw [r.ix1.sys]; exact g1.wf
    obtain ⟨h1, h2⟩ := C22_degree r.ix1.base r.ix1.ops hw1 c.bound (belowDegreeBound c.bound)
      (fun _ _ _ h => h) r.passes r.ix2 r.inlined r.step2
    rw [r.ix1.sys] at h1 h2
    constructor
    · intro e he
      exact (h1 e he).elim (fun h => h.trans hn) (d1.algebraic e)
    · intro b hb
      exact (h2 b hb).elim (fun h e he => (h e he).trans hkb) (d1.bus b)
  have d3 : r.s3.Degrees n k := by
    obtain ⟨keep, -, -, -, h4⟩ := removeDisconnected_ok (Indexed.inv_history _ _) r.step3
    rw [h4]
    exact degrees_filter (by rw [r.ix3.sys]; exact d2)
  have d4 : r.st.finish.system.Degrees n k :=
    degrees_finish (degrees_driver (fun b hb => by cases hb; exact hn) d3 r.step4)
  exact degrees_trivial (degrees_ranges hrh hn he d4 r.step5) r.step6

/-! ### OpenVM -/

theorem openVm_keepsDegree (m : BusMap) :
    (openVmRangeHandler m : RangeHandler p V).KeepsDegree := by
  intro rcs made h k hk
  simp only [openVmRangeHandler, batchMakeRangeConstraints] at h
  rw [Except.bind_ok_iff] at h
  obtain ⟨⟨s0, s1⟩, -, h⟩ := h
  simp only at h
  rw [Except.bind_ok_iff] at h
  obtain ⟨⟨r0, r1⟩, -, h⟩ := h
  simp only at h
  split at h
  · cases h
  · rw [Except.bind_ok_iff] at h
    obtain ⟨tupleId, -, h⟩ := h
    rw [Except.bind_ok_iff] at h
    obtain ⟨byteId, -, h⟩ := h
    rw [Except.bind_ok_iff] at h
    obtain ⟨otherId, -, h⟩ := h
    have hconst : ∀ a : ZMod p, degree (const a : GExpr p V) ≤ k := fun a => by
      rw [degree_const]; exact Nat.zero_le _
    have hbytes : ∀ e ∈ byteExpressions rcs, degree e ≤ k := by
      intro e he
      unfold byteExpressions at he
      rw [List.mem_reverse, List.mem_dedup, List.mem_reverse] at he
      obtain ⟨x, hx, rfl⟩ := List.mem_map.1 he
      exact hk x (List.mem_filter.1 hx).1
    have hnon : ∀ x ∈ nonByteConstraints rcs, degree x.1 ≤ k := fun x hx =>
      hk x (List.mem_filter.1 hx).1
    have hother : ∀ {l : RangeConstraints p V} {o}, otherChecks otherId l = some o →
        (∀ x ∈ l, degree x.1 ≤ k) → ∀ b ∈ o, ∀ e ∈ b.fields, degree e ≤ k := by
      intro l
      induction l with
      | nil => intro o ho; cases ho; simp
      | cons x t ih =>
        intro o ho hl
        obtain ⟨e, rc⟩ := x
        simp only [otherChecks] at ho
        cases h1 : rangeConstraintToNumBits rc with
        | none => rw [h1] at ho; cases ho
        | some bits =>
          cases h2 : otherChecks otherId t with
          | none => rw [h1, h2] at ho; cases ho
          | some rest =>
            rw [h1, h2] at ho
            cases ho
            intro b hb
            rcases List.mem_cons.1 hb with rfl | hb
            · intro e' he'
              simp only [BusInteraction.fields, List.mem_cons, List.not_mem_nil, or_false] at he'
              rcases he' with rfl | rfl | rfl | rfl
              · exact hconst _
              · exact hconst _
              · exact hl (e', rc) List.mem_cons_self
              · exact hconst _
            · exact ih h2 (fun x hx => hl x (List.mem_cons_of_mem _ hx)) b hb
    have hbyte : ∀ (l : List (GExpr p V)), (∀ e ∈ l, degree e ≤ k) →
        ∀ b ∈ byteChecks byteId l, ∀ e ∈ b.fields, degree e ≤ k := by
      intro l
      induction l using byteChecks.induct with
      | case1 => intro _ b hb; cases hb
      | case2 x =>
        intro hl b hb e he
        rw [byteChecks, List.mem_singleton] at hb
        subst hb
        simp only [BusInteraction.fields, List.mem_cons, List.not_mem_nil, or_false] at he
        rcases he with rfl | rfl | rfl | rfl | rfl | rfl
        all_goals first | exact hconst _ | exact hl _ (by simp)
      | case3 x y t ih =>
        intro hl b hb
        rw [byteChecks] at hb
        rcases List.mem_cons.1 hb with rfl | hb
        · intro e he
          simp only [BusInteraction.fields, List.mem_cons, List.not_mem_nil, or_false] at he
          rcases he with rfl | rfl | rfl | rfl | rfl | rfl
          all_goals first | exact hconst _ | exact hl _ (by simp)
        · exact ih (fun e he => hl e (by simp [he])) b hb
    simp only [pure, Except.pure, Except.ok.injEq] at h
    rw [Option.bind_eq_bind, Option.bind_eq_some_iff] at h
    obtain ⟨others, ho, h⟩ := h
    cases h
    intro b hb
    rcases List.mem_append.1 hb with hb | hb
    · rcases List.mem_append.1 hb with hb | hb
      · unfold tupleChecks at hb
        obtain ⟨⟨x, y⟩, hxy, rfl⟩ := List.mem_map.1 hb
        obtain ⟨h1, h2⟩ := List.of_mem_zip hxy
        intro e he
        simp only [BusInteraction.fields, List.mem_cons, List.not_mem_nil, or_false] at he
        rcases he with rfl | rfl | rfl | rfl
        · exact hconst _
        · exact hconst _
        · exact hbytes _ (List.mem_of_mem_take h1)
        · obtain ⟨z, hz, rfl⟩ := List.mem_map.1 h2
          exact hnon z (List.mem_filter.1 (List.mem_of_mem_take hz)).1
      · exact hbyte _ (fun e he => hbytes e (List.mem_of_mem_drop he)) b hb
    · refine hother ho (fun x hx => ?_) b hb
      rcases List.mem_append.1 hx with hx | hx
      · exact hnon x (List.mem_filter.1 hx).1
      · exact hnon x (List.mem_filter.1 (List.mem_of_mem_drop hx)).1

end Verif
