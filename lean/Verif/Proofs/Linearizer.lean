import Verif.Model.Linearizer
import Verif.Proofs.Splitter

/-! Proofs about the linearizer. -/

set_option linter.unusedSectionVars false

namespace Verif

open GExpr

variable {p : ℕ} {V : Type} [LinearOrder V] [Fact p.Prime]

/-! ### Affine expressions -/

namespace GExpr

theorem isAffine_iff {e : GExpr p V} : e.isAffine = true ↔ e.quadratic = [] := by
  simp [isAffine, isQuadratic]

theorem affine_add {a b : GExpr p V} (ha : a.isAffine = true) (hb : b.isAffine = true) :
    (add a b).isAffine = true := by
  rw [isAffine_iff] at *
  unfold add
  rw [ha, hb]
  simp [quadratic, combineRemovingZeros, combineLoop]

theorem affine_const (c : ZMod p) : (const c : GExpr p V).isAffine = true := by
  rw [isAffine_iff]; rfl

theorem affine_var (v : V) : (var v : GExpr p V).isAffine = true := by
  rw [isAffine_iff]; rfl

theorem affine_scale (k : ZMod p) {e : GExpr p V} (h : e.isAffine = true) :
    (scale k e).isAffine = true := by
  obtain ⟨q, l, c⟩ := e
  rw [isAffine_iff] at *
  have h' : q = [] := h
  subst h'
  rw [scale]
  split
  · rfl
  · simp [quadratic, scaleQ]

theorem affine_foldl {l : List (GExpr p V)} {a : GExpr p V} (ha : a.isAffine = true)
    (hl : ∀ e ∈ l, e.isAffine = true) : (l.foldl add a).isAffine = true := by
  induction l generalizing a with
  | nil => exact ha
  | cons e t ih =>
    exact ih (affine_add ha (hl e (by simp))) fun e he => hl e (by simp [he])

theorem affine_sum {l : List (GExpr p V)} (hl : ∀ e ∈ l, e.isAffine = true) :
    (sum l).isAffine = true := affine_foldl (affine_const 0) hl

theorem affine_of_known {e : GExpr p V} (h : e.tryToKnown.isSome = true) : e.isAffine = true := by
  obtain ⟨k, hk⟩ := Option.isSome_iff_exists.1 h
  rw [tryToKnown_eq_some.1 hk, isAffine_iff]
  rfl

theorem tryToSimpleUnknown_eq_some {e : GExpr p V} {v : V} :
    e.tryToSimpleUnknown = some v ↔ e = var v := by
  obtain ⟨q, l, c⟩ := e
  unfold tryToSimpleUnknown
  constructor
  · intro h
    split at h
    · cases h
    · rename_i hn
      push Not at hn
      obtain ⟨h1, h2⟩ := hn
      simp only [isQuadratic, quadratic, Bool.not_eq_true, Bool.not_eq_false',
        List.isEmpty_iff] at h1
      have h2' : c = 0 := h2
      subst h1; subst h2'
      simp only [linear] at h
      split at h
      · rename_i w d
        split at h
        · rename_i hd
          cases h
          rw [hd]
          rfl
        · cases h
      · cases h
  · intro h
    unfold var at h
    cases h
    simp [isQuadratic, quadratic, constant, linear]

theorem affine_of_unknown {e : GExpr p V} (h : e.tryToSimpleUnknown.isSome = true) :
    e.isAffine = true := by
  obtain ⟨v, hv⟩ := Option.isSome_iff_exists.1 h
  rw [tryToSimpleUnknown_eq_some.1 hv]
  exact affine_var v

end GExpr

/-! ### State of the linearizer -/

/-- The constraints collected so far and all substitutions hold. -/
def LinState.Holds (τ : V → ZMod p) (st : LinState p V) : Prop :=
  (∀ c ∈ st.constraints, eval τ c = 0) ∧ ∀ x ∈ st.subs, eval τ x.1 = eval τ x.2

/-- `B n v` says that `v` is none of the variables `fresh n`, `fresh (n + 1)`, ... -/
structure Dispenses (fresh : ℕ → V) (B : ℕ → V → Prop) : Prop where
  mono : ∀ n n' v, n ≤ n' → B n v → B n' v
  succ : ∀ n, B (n + 1) (fresh n)
  ne : ∀ n v, B n v → v ≠ fresh n

theorem Dispenses.ne_of_le {fresh : ℕ → V} {B : ℕ → V → Prop} (h : Dispenses fresh B) {n m : ℕ}
    {v : V} (hv : B n v) (hm : n ≤ m) : v ≠ fresh m := h.ne m v (h.mono n m v hm hv)

/-- No variable of the expression is dispensed later. -/
def Below (B : ℕ → V → Prop) (n : ℕ) (e : GExpr p V) : Prop := ∀ v ∈ vars e, B n v

variable {fresh : ℕ → V} {B : ℕ → V → Prop}

theorem Below.mono (hB : Dispenses fresh B) {n n' : ℕ} {e : GExpr p V} (h : Below B n e)
    (hn : n ≤ n') : Below B n' e := fun v hv => hB.mono n n' v hn (h v hv)

theorem Below.update (hB : Dispenses fresh B) {n : ℕ} {e : GExpr p V} (h : Below B n e)
    (τ : V → ZMod p) (x : ZMod p) : eval (Function.update τ (fresh n) x) e = eval τ e :=
  eval_congr fun v hv => Function.update_of_ne (hB.ne n v (h v hv)) _ _

/-- Invariant of the state. -/
structure LinState.Inv (B : ℕ → V → Prop) (st : LinState p V) : Prop where
  key : ∀ x ∈ st.subs, WF x.1 ∧ Below B st.next x.1
  value : ∀ x ∈ st.subs, WF x.2 ∧ Below B st.next x.2 ∧ x.2.isAffine = true
  constraint : ∀ c ∈ st.constraints, WF c ∧ Below B st.next c

/-- How the state changes. -/
structure LinExt (fresh : ℕ → V) (B : ℕ → V → Prop) (st st' : LinState p V) : Prop where
  inv : st'.Inv B
  le : st.next ≤ st'.next
  subs : ∀ x ∈ st.subs, x ∈ st'.subs
  constraints : ∃ new, st'.constraints = st.constraints ++ new
  implied : ∀ x ∈ st'.subs, x ∈ st.subs ∨ x.1 - x.2 ∈ st'.constraints
  complete : ∀ τ, st.Holds τ → ∃ τ' : V → ZMod p,
    (∀ v, (∀ m, st.next ≤ m → m < st'.next → v ≠ fresh m) → τ' v = τ v) ∧ st'.Holds τ'

theorem LinExt.holds {st st' : LinState p V} (h : LinExt fresh B st st')
    {τ : V → ZMod p} (hh : st'.Holds τ) : st.Holds τ := by
  obtain ⟨new, hn⟩ := h.constraints
  exact ⟨fun c hc => hh.1 c (by rw [hn]; simp [hc]), fun x hx => hh.2 x (h.subs x hx)⟩

theorem LinExt.refl {st : LinState p V} (h : st.Inv B) :
    LinExt fresh B st st where
  inv := h
  le := le_rfl
  subs _ hx := hx
  constraints := ⟨[], by simp⟩
  implied _ hx := Or.inl hx
  complete τ hτ := ⟨τ, fun _ _ => rfl, hτ⟩

theorem LinExt.trans {st st' st'' : LinState p V} (h : LinExt fresh B st st')
    (h' : LinExt fresh B st' st'') : LinExt fresh B st st'' where
  inv := h'.inv
  le := h.le.trans h'.le
  subs x hx := h'.subs x (h.subs x hx)
  constraints := by
    obtain ⟨n, hn⟩ := h.constraints
    obtain ⟨n', hn'⟩ := h'.constraints
    exact ⟨n ++ n', by rw [hn', hn, List.append_assoc]⟩
  implied x hx := by
    rcases h'.implied x hx with h1 | h1
    · rcases h.implied x h1 with h2 | h2
      · exact Or.inl h2
      · obtain ⟨n', hn'⟩ := h'.constraints
        exact Or.inr (by rw [hn']; simp [h2])
    · exact Or.inr h1
  complete τ hτ := by
    obtain ⟨τ', h1, h2⟩ := h.complete τ hτ
    obtain ⟨τ'', h3, h4⟩ := h'.complete τ' h2
    refine ⟨τ'', fun v hv => ?_, h4⟩
    rw [h3 v fun m hm hm' => hv m (h.le.trans hm) hm',
      h1 v fun m hm hm' => hv m hm (hm'.trans_le h'.le)]

/-- What holds for an expression that replaces `e`. -/
structure LinOut (B : ℕ → V → Prop) (e r : GExpr p V) (st : LinState p V) : Prop where
  wf : WF r
  below : Below B st.next r
  affine : r.isAffine = true
  sound : ∀ τ, st.Holds τ → eval τ r = eval τ e

theorem LinOut.mono (hB : Dispenses fresh B) {e r : GExpr p V} {st st' : LinState p V}
    (h : LinOut B e r st) (hx : LinExt fresh B st st') : LinOut B e r st' :=
  ⟨h.wf, h.below.mono hB hx.le, h.affine, fun τ hτ => h.sound τ (hx.holds hτ)⟩

theorem LinearSubs.get_mem {subs : LinearSubs p V} {e r : GExpr p V} (h : subs.get e = some r) :
    (e, r) ∈ subs := by
  induction subs with
  | nil => cases h
  | cons x t ih =>
    obtain ⟨k, v⟩ := x
    unfold LinearSubs.get at h
    split at h
    · rename_i hk
      cases h
      rw [hk]
      simp
    · exact List.mem_cons_of_mem _ (ih h)

theorem trySubstituteByExistingVar_cases {subs : LinearSubs p V} {e r : GExpr p V}
    (h : trySubstituteByExistingVar subs e = some r) :
    (r = e ∧ e.isAffine = true) ∨ (e, r) ∈ subs := by
  unfold trySubstituteByExistingVar at h
  split at h
  · rename_i hc
    cases h
    left
    refine ⟨rfl, ?_⟩
    simp only [Bool.or_eq_true] at hc
    rcases hc with hc | hc
    · exact affine_of_known hc
    · exact affine_of_unknown hc
  · exact Or.inr (LinearSubs.get_mem h)

theorem trySubstituteByExistingVar_out {st : LinState p V} (hi : st.Inv B)
    {e r : GExpr p V} (hw : WF e) (hb : Below B st.next e)
    (h : trySubstituteByExistingVar st.subs e = some r) : LinOut B e r st := by
  rcases trySubstituteByExistingVar_cases h with ⟨rfl, ha⟩ | hm
  · exact ⟨hw, hb, ha, fun _ _ => rfl⟩
  · obtain ⟨h1, h2, h3⟩ := hi.value _ hm
    exact ⟨h1, h2, h3, fun τ hτ => (hτ.2 _ hm).symm⟩

theorem substituteByVar_spec (hB : Dispenses fresh B) {st : LinState p V}
    (hi : st.Inv B) {e : GExpr p V} (hw : WF e) (hb : Below B st.next e) :
    LinExt fresh B st (substituteByVar fresh e st).2 ∧
      LinOut B e (substituteByVar fresh e st).1 (substituteByVar fresh e st).2 := by
  unfold substituteByVar
  cases hs : trySubstituteByExistingVar st.subs e with
  | some s => exact ⟨.refl hi, trySubstituteByExistingVar_out hi hw hb hs⟩
  | none =>
    simp only
    have hbv : Below B (st.next + 1) (var (fresh st.next) : GExpr p V) := by
      intro v hv
      rw [vars_var, List.mem_singleton] at hv
      rw [hv]
      exact hB.succ _
    have hev : ∀ τ, eval τ (e - var (fresh st.next)) = eval τ e - τ (fresh st.next) := by
      intro τ
      rw [show e - var (fresh st.next) = sub e (var (fresh st.next)) from rfl, eval_sub, eval_var]
    refine ⟨⟨⟨?_, ?_, ?_⟩, by simp, fun x hx => by simp [hx], ⟨_, rfl⟩, ?_, ?_⟩,
      ⟨wf_var _, hbv, affine_var _, ?_⟩⟩
    · intro x hx
      rcases List.mem_cons.1 hx with rfl | hx
      · exact ⟨hw, hb.mono hB (by simp)⟩
      · exact ⟨(hi.key x hx).1, (hi.key x hx).2.mono hB (by simp)⟩
    · intro x hx
      rcases List.mem_cons.1 hx with rfl | hx
      · exact ⟨wf_var _, hbv, affine_var _⟩
      · exact ⟨(hi.value x hx).1, (hi.value x hx).2.1.mono hB (by simp), (hi.value x hx).2.2⟩
    · intro c hc
      rcases List.mem_append.1 hc with hc | hc
      · exact ⟨(hi.constraint c hc).1, (hi.constraint c hc).2.mono hB (by simp)⟩
      · rw [List.mem_singleton] at hc
        subst hc
        refine ⟨wf_sub hw (wf_var _), fun v hv => ?_⟩
        rcases vars_sub_subset _ _ hv with hv | hv
        · exact hb.mono hB (by simp) v hv
        · exact hbv v hv
    · intro x hx
      rcases List.mem_cons.1 hx with rfl | hx
      · exact Or.inr (by simp)
      · exact Or.inl hx
    · intro τ hτ
      refine ⟨Function.update τ (fresh st.next) (eval τ e), fun v hv => ?_, ?_, ?_⟩
      · exact Function.update_of_ne (hv st.next le_rfl (by simp)) _ _
      · intro c hc
        rcases List.mem_append.1 hc with hc | hc
        · rw [(hi.constraint c hc).2.update hB]
          exact hτ.1 c hc
        · rw [List.mem_singleton] at hc
          subst hc
          rw [hev, Function.update_self, hb.update hB]
          ring
      · intro x hx
        rcases List.mem_cons.1 hx with rfl | hx
        · rw [eval_var, Function.update_self, hb.update hB]
        · rw [(hi.key x hx).2.update hB, (hi.value x hx).2.1.update hB]
          exact hτ.2 x hx
    · intro τ hτ
      have := hτ.1 (e - var (fresh st.next)) (by simp)
      rw [hev, sub_eq_zero] at this
      rw [eval_var, this]

/-! ### Linearizing -/

/-- The summands that replace the quadratic terms, then the affine part. -/
theorem linear_sum_out {q : List (GExpr p V × GExpr p V)} {l : List (V × ZMod p)}
    {c : ZMod p} {rs : List (GExpr p V)} {st : LinState p V} (_hw : WF (mk q l c))
    (hb : Below B st.next (mk q l c))
    (hrs : ∀ r ∈ rs, WF r ∧ Below B st.next r ∧ r.isAffine = true)
    (hs : ∀ τ, st.Holds τ →
      (rs.map (eval τ)).sum = (q.map fun ab => eval τ ab.1 * eval τ ab.2).sum) :
    LinOut B (mk q l c)
      (sum (rs ++ l.map (fun e => scale e.2 (var e.1)) ++ if c = 0 then [] else [const c])) st := by
  have hmem : ∀ r ∈ rs ++ l.map (fun e => scale e.2 (var e.1)) ++ (if c = 0 then [] else [const c]),
      WF r ∧ Below B st.next r ∧ r.isAffine = true := by
    intro r hr
    rcases List.mem_append.1 hr with hr | hr
    · rcases List.mem_append.1 hr with hr | hr
      · exact hrs r hr
      · obtain ⟨e, he, rfl⟩ := List.mem_map.1 hr
        refine ⟨wf_scale _ (wf_var _), fun v hv => ?_, affine_scale _ (affine_var _)⟩
        have := vars_scale_subset _ _ hv
        rw [vars_var, List.mem_singleton] at this
        subst this
        exact hb e.1 (mem_vars_mk.2 (Or.inr ⟨e.2, he⟩))
    · split at hr
      · cases hr
      · rw [List.mem_singleton] at hr
        subst hr
        exact ⟨wf_const _, fun v hv => by simp [vars_const] at hv, affine_const _⟩
  refine ⟨wf_sum fun r hr => (hmem r hr).1, Splitter.vars_sum_closed fun r hr => (hmem r hr).2.1,
    affine_sum fun r hr => (hmem r hr).2.2, fun τ hτ => ?_⟩
  rw [eval_sum, List.map_append, List.map_append, List.sum_append, List.sum_append, hs τ hτ,
    eval_mk, List.map_map]
  congr 1
  · congr 2
    apply List.map_congr_left
    intro e _
    simp [eval_scale, eval_var]
  · split
    · rename_i h; simp [h]
    · simp [eval_const]

theorem wf_term {q : List (GExpr p V × GExpr p V)} {l : List (V × ZMod p)} {c : ZMod p}
    (hw : WF (mk q l c)) {ab : GExpr p V × GExpr p V} (h : ab ∈ q) : WF ab.1 ∧ WF ab.2 :=
  ⟨((wf_inv hw).1 ab h).1, ((wf_inv hw).1 ab h).2.1⟩

theorem linearizeExpression_spec (hB : Dispenses fresh B) (e : GExpr p V) :
    ∀ {st : LinState p V}, st.Inv B → WF e → Below B st.next e →
      LinExt fresh B st (linearizeExpression fresh e st).2 ∧
      LinOut B e (linearizeExpression fresh e st).1 (linearizeExpression fresh e st).2 := by
  induction e using GExpr.ind with
  | h q l c ih =>
    intro st hi hw hb
    have key : ∀ q' : List (GExpr p V × GExpr p V), (∀ ab ∈ q', ab ∈ q) → ∀ {st : LinState p V},
        st.Inv B → Below B st.next (mk q l c) →
        LinExt fresh B st (linearizeQ fresh q' st).2 ∧
        (∀ r ∈ (linearizeQ fresh q' st).1, WF r ∧ Below B (linearizeQ fresh q' st).2.next r ∧
          r.isAffine = true) ∧
        ∀ τ, (linearizeQ fresh q' st).2.Holds τ → ((linearizeQ fresh q' st).1.map (eval τ)).sum =
          (q'.map fun ab => eval τ ab.1 * eval τ ab.2).sum := by
      intro q'
      induction q' with
      | nil =>
        intro _ st hi _
        simp only [linearizeQ]
        exact ⟨.refl hi, by simp, by simp⟩
      | cons ab t iht =>
        intro hsub st hi hb
        obtain ⟨a, b⟩ := ab
        have hmem : (a, b) ∈ q := hsub _ (by simp)
        obtain ⟨hwa, hwb⟩ := wf_term hw hmem
        have hba : ∀ {n}, Below B n (mk q l c) → Below B n a := fun h v hv =>
          h v (mem_vars_mk.2 (Or.inl ⟨(a, b), hmem, Or.inl hv⟩))
        have hbb : ∀ {n}, Below B n (mk q l c) → Below B n b := fun h v hv =>
          h v (mem_vars_mk.2 (Or.inl ⟨(a, b), hmem, Or.inr hv⟩))
        obtain ⟨iha, ihb⟩ := ih (a, b) hmem
        simp only [linearizeQ]
        generalize hra : linearizeExpression fresh a st = ra
        have h1 := iha hi hwa (hba hb)
        rw [hra] at h1
        obtain ⟨x1, o1⟩ := h1
        generalize hsa : substituteByVar fresh ra.1 ra.2 = sa
        have h2 := substituteByVar_spec hB x1.inv o1.wf o1.below
        rw [hsa] at h2
        obtain ⟨x2, o2⟩ := h2
        generalize hrb : linearizeExpression fresh b sa.2 = rb
        have h3 := ihb x2.inv hwb ((hbb hb).mono hB (x1.le.trans x2.le))
        rw [hrb] at h3
        obtain ⟨x3, o3⟩ := h3
        generalize hsb : substituteByVar fresh rb.1 rb.2 = sb
        have h4 := substituteByVar_spec hB x3.inv o3.wf o3.below
        rw [hsb] at h4
        obtain ⟨x4, o4⟩ := h4
        have o2' := (o2.mono hB x3).mono hB x4
        generalize hs : substituteByVar fresh (mul sa.1 sb.1) sb.2 = s
        have h5 := substituteByVar_spec hB x4.inv (wf_mul o2'.wf o4.wf) (fun v hv => by
          rcases vars_mul_subset _ _ hv with hv | hv
          · exact o2'.below v hv
          · exact o4.below v hv)
        rw [hs] at h5
        obtain ⟨x5, o5⟩ := h5
        have x15 := (((x1.trans x2).trans x3).trans x4).trans x5
        have h6 := iht (fun ab h => hsub ab (by simp [h])) x5.inv (hb.mono hB x15.le)
        obtain ⟨x6, r6, v6⟩ := h6
        refine ⟨x15.trans x6, ?_, ?_⟩
        · intro r hr
          rcases List.mem_cons.1 hr with rfl | hr
          · exact ⟨o5.wf, o5.below.mono hB x6.le, o5.affine⟩
          · exact r6 r hr
        · intro τ hτ
          rw [List.map_cons, List.sum_cons, List.map_cons, List.sum_cons, v6 τ hτ]
          congr 1
          have t5 := x6.holds hτ
          have t4 := x5.holds t5
          have t3 := x4.holds t4
          have t2 := x3.holds t3
          have t1 := x2.holds t2
          rw [o5.sound τ t5, eval_mul, o4.sound τ t4, o2.sound τ t2, o1.sound τ t1, o3.sound τ t3]
    rcases q with _ | ⟨ab, q⟩
    · rw [linearizeExpression]
      exact ⟨.refl hi, hw, hb, by rw [isAffine_iff]; rfl, fun _ _ => rfl⟩
    · rw [linearizeExpression]
      simp only
      obtain ⟨x, r, v⟩ := key (ab :: q) (fun _ h => h) hi hb
      exact ⟨x, linear_sum_out hw (hb.mono hB x.le) r v⟩

theorem tryLinearizeExisting_spec {st : LinState p V} (hi : st.Inv B)
    (e : GExpr p V) : WF e → Below B st.next e → ∀ r,
      tryLinearizeExisting st.subs e = some r → LinOut B e r st := by
  induction e using GExpr.ind with
  | h q l c ih =>
    intro hw hb r hr
    have key : ∀ q' : List (GExpr p V × GExpr p V), (∀ ab ∈ q', ab ∈ q) → ∀ rs,
        tryLinearizeExistingQ st.subs q' = some rs →
        (∀ r ∈ rs, WF r ∧ Below B st.next r ∧ r.isAffine = true) ∧
        ∀ τ, st.Holds τ → (rs.map (eval τ)).sum =
          (q'.map fun ab => eval τ ab.1 * eval τ ab.2).sum := by
      intro q'
      induction q' with
      | nil =>
        intro _ rs hrs
        simp only [tryLinearizeExistingQ, Option.some.injEq] at hrs
        subst hrs
        simp
      | cons ab t iht =>
        intro hsub rs hrs
        obtain ⟨a, b⟩ := ab
        have hmem : (a, b) ∈ q := hsub _ (by simp)
        obtain ⟨hwa, hwb⟩ := wf_term hw hmem
        have hba : Below B st.next a := fun v hv =>
          hb v (mem_vars_mk.2 (Or.inl ⟨(a, b), hmem, Or.inl hv⟩))
        have hbb : Below B st.next b := fun v hv =>
          hb v (mem_vars_mk.2 (Or.inl ⟨(a, b), hmem, Or.inr hv⟩))
        obtain ⟨iha, ihb⟩ := ih (a, b) hmem
        simp only [tryLinearizeExistingQ, Option.bind_eq_bind, Option.bind_eq_some_iff] at hrs
        obtain ⟨la, h1, a', h2, lb, h3, b', h4, ab', h5, r', h6, h7⟩ := hrs
        simp only [Option.pure_def, Option.some.injEq] at h7
        subst h7
        have o1 := iha hwa hba la h1
        have o2 := trySubstituteByExistingVar_out hi o1.wf o1.below h2
        have o3 := ihb hwb hbb lb h3
        have o4 := trySubstituteByExistingVar_out hi o3.wf o3.below h4
        have o5 := trySubstituteByExistingVar_out hi (wf_mul o2.wf o4.wf) (fun v hv => by
          rcases vars_mul_subset _ _ hv with hv | hv
          · exact o2.below v hv
          · exact o4.below v hv) h5
        obtain ⟨r6, v6⟩ := iht (fun ab h => hsub ab (by simp [h])) r' h6
        refine ⟨?_, ?_⟩
        · intro r hr
          rcases List.mem_cons.1 hr with rfl | hr
          · exact ⟨o5.wf, o5.below, o5.affine⟩
          · exact r6 r hr
        · intro τ hτ
          rw [List.map_cons, List.sum_cons, List.map_cons, List.sum_cons, v6 τ hτ]
          congr 1
          rw [o5.sound τ hτ, eval_mul, o4.sound τ hτ, o2.sound τ hτ, o1.sound τ hτ, o3.sound τ hτ]
    rcases q with _ | ⟨ab, q⟩
    · rw [tryLinearizeExisting] at hr
      cases hr
      exact ⟨hw, hb, by rw [isAffine_iff]; rfl, fun _ _ => rfl⟩
    · rw [tryLinearizeExisting, Option.map_eq_some_iff] at hr
      obtain ⟨rs, hrs, rfl⟩ := hr
      obtain ⟨r, v⟩ := key (ab :: q) (fun _ h => h) rs hrs
      exact linear_sum_out hw hb r v

theorem internalizedVersions_spec {st : LinState p V} (hi : st.Inv B)
    {e : GExpr p V} (hw : WF e) (hb : Below B st.next e) :
    ∀ r ∈ internalizedVersions st.subs e, WF r ∧ Below B st.next r ∧
      ∀ τ, st.Holds τ → eval τ r = eval τ e := by
  intro r hr
  unfold internalizedVersions at hr
  simp only [List.mem_cons, List.mem_append, Option.mem_toList] at hr
  rcases hr with rfl | hr | hr
  · exact ⟨hw, hb, fun _ _ => rfl⟩
  · have := trySubstituteByExistingVar_out hi hw hb hr
    exact ⟨this.wf, this.below, this.sound⟩
  · have := tryLinearizeExisting_spec hi e hw hb r hr
    exact ⟨this.wf, this.below, this.sound⟩

/-! ### Reuse of variables -/

/-- All substitutions of the first map are found in the second. -/
def GetMono (a b : LinearSubs p V) : Prop := ∀ e r, a.get e = some r → b.get e = some r

theorem GetMono.trySubst {a b : LinearSubs p V} (h : GetMono a b) {e r : GExpr p V}
    (hs : trySubstituteByExistingVar a e = some r) : trySubstituteByExistingVar b e = some r := by
  unfold trySubstituteByExistingVar at *
  split
  · rename_i hc; rwa [if_pos hc] at hs
  · rename_i hc; rw [if_neg hc] at hs; exact h e r hs

theorem substituteByVar_reuse (fresh : ℕ → V) (e : GExpr p V) (st : LinState p V) :
    GetMono st.subs (substituteByVar fresh e st).2.subs ∧
      trySubstituteByExistingVar (substituteByVar fresh e st).2.subs e =
        some (substituteByVar fresh e st).1 := by
  unfold substituteByVar
  cases hs : trySubstituteByExistingVar st.subs e with
  | some s => exact ⟨fun _ _ h => h, hs⟩
  | none =>
    simp only
    have hn : st.subs.get e = none ∧
        ¬ ((e.tryToKnown.isSome || e.tryToSimpleUnknown.isSome) = true) := by
      unfold trySubstituteByExistingVar at hs
      split at hs
      · cases hs
      · rename_i h; exact ⟨hs, h⟩
    constructor
    · intro k r hk
      rw [LinearSubs.get]
      split
      · rename_i h; subst h; rw [hn.1] at hk; cases hk
      · exact hk
    · unfold trySubstituteByExistingVar
      rw [if_neg hn.2, LinearSubs.get, if_pos rfl]

theorem substituteByVar_existing (fresh : ℕ → V) {e r : GExpr p V} {st : LinState p V}
    (h : trySubstituteByExistingVar st.subs e = some r) : substituteByVar fresh e st = (r, st) := by
  unfold substituteByVar
  rw [h]

theorem linearizeExpression_reuse (fresh : ℕ → V) (e : GExpr p V) : ∀ st : LinState p V,
    GetMono st.subs (linearizeExpression fresh e st).2.subs ∧
      ∀ subs, GetMono (linearizeExpression fresh e st).2.subs subs →
        tryLinearizeExisting subs e = some (linearizeExpression fresh e st).1 := by
  induction e using GExpr.ind with
  | h q l c ih =>
    intro st
    have key : ∀ q' : List (GExpr p V × GExpr p V), (∀ ab ∈ q', ab ∈ q) → ∀ st : LinState p V,
        GetMono st.subs (linearizeQ fresh q' st).2.subs ∧
        ∀ subs, GetMono (linearizeQ fresh q' st).2.subs subs →
          tryLinearizeExistingQ subs q' = some (linearizeQ fresh q' st).1 := by
      intro q'
      induction q' with
      | nil =>
        intro _ st
        simp only [linearizeQ, tryLinearizeExistingQ]
        exact ⟨fun _ _ h => h, fun _ _ => trivial⟩
      | cons ab t iht =>
        intro hsub st
        obtain ⟨a, b⟩ := ab
        obtain ⟨iha, ihb⟩ := ih (a, b) (hsub _ (by simp))
        simp only [linearizeQ, tryLinearizeExistingQ]
        generalize hra : linearizeExpression fresh a st = ra
        have h1 := iha st
        rw [hra] at h1
        generalize hsa : substituteByVar fresh ra.1 ra.2 = sa
        have h2 := substituteByVar_reuse fresh ra.1 ra.2
        rw [hsa] at h2
        generalize hrb : linearizeExpression fresh b sa.2 = rb
        have h3 := ihb sa.2
        rw [hrb] at h3
        generalize hsb : substituteByVar fresh rb.1 rb.2 = sb
        have h4 := substituteByVar_reuse fresh rb.1 rb.2
        rw [hsb] at h4
        generalize hs : substituteByVar fresh (mul sa.1 sb.1) sb.2 = s
        have h5 := substituteByVar_reuse fresh (mul sa.1 sb.1) sb.2
        rw [hs] at h5
        have h6 := iht (fun ab h => hsub ab (by simp [h])) s.2
        refine ⟨fun k r hk => h6.1 k r (h5.1 k r (h4.1 k r (h3.1 k r (h2.1 k r (h1.1 k r hk))))), ?_⟩
        intro subs hm
        have m5 : GetMono s.2.subs subs := fun k r hk => hm k r (h6.1 k r hk)
        have m4 : GetMono sb.2.subs subs := fun k r hk => m5 k r (h5.1 k r hk)
        have m3 : GetMono rb.2.subs subs := fun k r hk => m4 k r (h4.1 k r hk)
        have m2 : GetMono sa.2.subs subs := fun k r hk => m3 k r (h3.1 k r hk)
        have m1 : GetMono ra.2.subs subs := fun k r hk => m2 k r (h2.1 k r hk)
        rw [h1.2 subs m1, h3.2 subs m3, h6.2 subs hm]
        simp only [Option.bind_eq_bind, Option.bind_some]
        rw [m2.trySubst h2.2, m4.trySubst h4.2]
        simp only [Option.bind_some]
        rw [m5.trySubst h5.2]
        rfl
    rcases q with _ | ⟨ab, q⟩
    · simp only [linearizeExpression, tryLinearizeExisting]
      exact ⟨fun _ _ h => h, fun _ _ => trivial⟩
    · simp only [linearizeExpression, tryLinearizeExisting]
      obtain ⟨k1, k2⟩ := key (ab :: q) (fun _ h => h) st
      refine ⟨k1, fun subs hm => ?_⟩
      rw [k2 subs hm]
      rfl

theorem linearizeExpression_existing (fresh : ℕ → V) (e : GExpr p V) :
    ∀ (st : LinState p V) (r : GExpr p V), tryLinearizeExisting st.subs e = some r →
      linearizeExpression fresh e st = (r, st) := by
  induction e using GExpr.ind with
  | h q l c ih =>
    intro st r hr
    have key : ∀ q' : List (GExpr p V × GExpr p V), (∀ ab ∈ q', ab ∈ q) → ∀ rs,
        tryLinearizeExistingQ st.subs q' = some rs → linearizeQ fresh q' st = (rs, st) := by
      intro q'
      induction q' with
      | nil =>
        intro _ rs hrs
        simp only [tryLinearizeExistingQ, Option.some.injEq] at hrs
        subst hrs
        rfl
      | cons ab t iht =>
        intro hsub rs hrs
        obtain ⟨a, b⟩ := ab
        obtain ⟨iha, ihb⟩ := ih (a, b) (hsub _ (by simp))
        simp only [tryLinearizeExistingQ, Option.bind_eq_bind, Option.bind_eq_some_iff] at hrs
        obtain ⟨la, h1, a', h2, lb, h3, b', h4, ab', h5, r', h6, h7⟩ := hrs
        simp only [Option.pure_def, Option.some.injEq] at h7
        subst h7
        simp only [linearizeQ]
        rw [iha st la h1]
        simp only
        rw [substituteByVar_existing fresh h2]
        simp only
        rw [ihb st lb h3]
        simp only
        rw [substituteByVar_existing fresh h4]
        simp only
        rw [substituteByVar_existing fresh h5]
        simp only
        rw [iht (fun ab h => hsub ab (by simp [h])) r' h6]
    rcases q with _ | ⟨ab, q⟩
    · rw [tryLinearizeExisting] at hr
      cases hr
      rfl
    · rw [tryLinearizeExisting, Option.map_eq_some_iff] at hr
      obtain ⟨rs, hrs, rfl⟩ := hr
      rw [linearizeExpression, key (ab :: q) (fun _ h => h) rs hrs]

end Verif
