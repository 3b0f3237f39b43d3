import Verif.Spec.Extraction
import Verif.Proofs.Expression

set_option linter.unusedSectionVars false
set_option linter.unusedSimpArgs false

namespace Verif

section
variable {E α β : Type}

theorem exceptMapM_ok {f : α → Except E β} : ∀ {l : List α} {r : List β}, l.mapM f = .ok r →
    List.Forall₂ (fun a b => f a = .ok b) l r
  | [], r, h => by
    simp only [List.mapM_nil, pure, Except.pure, Except.ok.injEq] at h
    subst h; exact .nil
  | a :: l, r, h => by
    rw [List.mapM_cons] at h
    simp only [bind, Except.bind, pure, Except.pure] at h
    split at h
    · exact absurd h (by simp)
    · rename_i b hb
      split at h
      · exact absurd h (by simp)
      · rename_i t ht
        simp only [Except.ok.injEq] at h
        subst h
        exact .cons hb (exceptMapM_ok ht)

theorem exceptMapM_total {f : α → Except E β} : ∀ {l : List α}, (∀ a ∈ l, ∃ b, f a = .ok b) →
    ∃ r, l.mapM f = .ok r
  | [], _ => ⟨[], rfl⟩
  | a :: l, h => by
    obtain ⟨b, hb⟩ := h a (by simp)
    obtain ⟨t, ht⟩ := exceptMapM_total (l := l) fun x hx => h x (by simp [hx])
    refine ⟨b :: t, ?_⟩
    rw [List.mapM_cons, hb]
    simp only [bind, Except.bind, ht, pure, Except.pure]

theorem exceptMapM_error {f : α → Except E β} {e : E} : ∀ {l : List α}, l.mapM f = .error e →
    ∃ a ∈ l, f a = .error e
  | [], h => by simp [pure, Except.pure] at h
  | a :: l, h => by
    rw [List.mapM_cons] at h
    simp only [bind, Except.bind, pure, Except.pure] at h
    split at h
    · rename_i e' he
      simp only [Except.error.injEq] at h
      subst h
      exact ⟨a, by simp, he⟩
    · split at h
      · rename_i e' he
        simp only [Except.error.injEq] at h
        subst h
        obtain ⟨x, hx, hf⟩ := exceptMapM_error he
        exact ⟨x, by simp [hx], hf⟩
      · exact absurd h (by simp)
end

section
variable {F : Type}

theorem extractExpr_ok {columns : List String} : ∀ {e : AirExpr F} {r : AlgExpr F ℕ}, extractExpr columns e = .ok r →
    e.CurrentRow columns.length := by
  intro e
  induction e with
  | constant c => intro r _; trivial
  | column entry index =>
    intro r h
    simp only [extractExpr, symbolicToAlgebraic, symbolicVariable, bind, Except.bind, pure, Except.pure] at h
    cases entry with
    | main part offset =>
      by_cases hp : part = 0
      · by_cases ho : offset = 0
        · by_cases hi : index < columns.length
          · subst hp ho; exact ⟨rfl, hi⟩
          · simp [hp, ho, hi] at h
        · by_cases ho1 : offset = 1
          · by_cases hi : index < columns.length
            · simp [hp, ho1, hi, tryConvert, OpenVmRef.tryInto, bind, Except.bind] at h
            · simp [hp, ho1, hi] at h
          · simp [hp, ho, ho1] at h
      · simp [hp] at h
    | other k => simp at h
  | isFirstRow => intro r h; simp [extractExpr, symbolicToAlgebraic, tryConvert, OpenVmRef.tryInto, bind, Except.bind] at h
  | isLastRow => intro r h; simp [extractExpr, symbolicToAlgebraic, tryConvert, OpenVmRef.tryInto, bind, Except.bind] at h
  | isTransition => intro r h; simp [extractExpr, symbolicToAlgebraic, tryConvert, OpenVmRef.tryInto, bind, Except.bind] at h
  | add x y hx hy | sub x y hx hy | mul x y hx hy =>
    intro r h
    simp only [extractExpr, symbolicToAlgebraic, bind, Except.bind, pure, Except.pure] at h hx hy
    cases hsx : symbolicToAlgebraic columns x with
    | error e => simp [hsx] at h
    | ok sx =>
      cases hsy : symbolicToAlgebraic columns y with
      | error e => simp [hsx, hsy] at h
      | ok sy =>
        simp only [hsx, hsy, tryConvert, bind, Except.bind, pure, Except.pure] at h hx hy
        cases htx : tryConvert sx with
        | error e => simp [htx] at h
        | ok tx =>
          cases hty : tryConvert sy with
          | error e => simp [htx, hty] at h
          | ok ty => exact ⟨hx htx, hy hty⟩
  | neg x hx =>
    intro r h
    simp only [extractExpr, symbolicToAlgebraic, bind, Except.bind, pure, Except.pure] at h hx
    cases hsx : symbolicToAlgebraic columns x with
    | error e => simp [hsx] at h
    | ok sx =>
      simp only [hsx, tryConvert, bind, Except.bind, pure, Except.pure] at h hx
      cases htx : tryConvert sx with
      | error e => simp [htx] at h
      | ok tx => exact hx htx

/-- The result for an expression on the current row. -/
def AirExpr.plain : AirExpr F → AlgExpr F ℕ
  | .constant c => .number c
  | .column _ index => .reference index
  | .add x y => .binary x.plain .add y.plain
  | .sub x y => .binary x.plain .sub y.plain
  | .mul x y => .binary x.plain .mul y.plain
  | .neg x => .minus x.plain
  | _ => .reference 0

theorem extractExpr_currentRow {columns : List String} : ∀ {e : AirExpr F}, e.CurrentRow columns.length →
    extractExpr columns e = .ok e.plain := by
  have key : ∀ {e : AirExpr F}, e.CurrentRow columns.length →
      ∃ s, symbolicToAlgebraic columns e = .ok s ∧ tryConvert s = .ok e.plain := by
    intro e
    induction e with
    | constant c => intro _; exact ⟨_, rfl, rfl⟩
    | column entry index =>
      rintro ⟨rfl, hi⟩
      refine ⟨.reference (.witness index false), ?_, rfl⟩
      simp [symbolicToAlgebraic, symbolicVariable, hi, bind, Except.bind, pure, Except.pure]
    | isFirstRow => intro h; exact h.elim
    | isLastRow => intro h; exact h.elim
    | isTransition => intro h; exact h.elim
    | add x y hx hy | sub x y hx hy | mul x y hx hy =>
      rintro ⟨h1, h2⟩
      obtain ⟨sx, hsx, htx⟩ := hx h1
      obtain ⟨sy, hsy, hty⟩ := hy h2
      refine ⟨_, by simp only [symbolicToAlgebraic, hsx, hsy, bind, Except.bind, pure, Except.pure]; rfl, ?_⟩
      simp only [tryConvert, htx, hty, bind, Except.bind, pure, Except.pure, AirExpr.plain]
    | neg x hx =>
      intro h1
      obtain ⟨sx, hsx, htx⟩ := hx h1
      refine ⟨_, by simp only [symbolicToAlgebraic, hsx, bind, Except.bind, pure, Except.pure]; rfl, ?_⟩
      simp only [tryConvert, htx, bind, Except.bind, pure, Except.pure, AirExpr.plain]
  intro e h
  obtain ⟨s, h1, h2⟩ := key h
  simp only [extractExpr, h1, bind, Except.bind, h2]

theorem extractExpr_eq {columns : List String} {e : AirExpr F} {r : AlgExpr F ℕ} (h : extractExpr columns e = .ok r) :
    r = e.plain := by
  have := extractExpr_currentRow (extractExpr_ok h)
  rw [h] at this
  exact Except.ok.inj this

theorem plain_value [CommRing F] (env : AirEnv F) {width : ℕ} : ∀ {e : AirExpr F}, e.CurrentRow width →
    e.plain.value (env.main 0 0) = e.value env := by
  intro e
  induction e with
  | constant c => intro _; rfl
  | column entry index => rintro ⟨rfl, _⟩; rfl
  | isFirstRow => intro h; exact h.elim
  | isLastRow => intro h; exact h.elim
  | isTransition => intro h; exact h.elim
  | add x y hx hy | sub x y hx hy | mul x y hx hy =>
    rintro ⟨h1, h2⟩
    simp only [AirExpr.plain, AlgExpr.value, AirExpr.value, hx h1, hy h2]
  | neg x hx =>
    intro h1
    simp only [AirExpr.plain, AlgExpr.value, AirExpr.value, hx h1]

theorem plain_refs {width : ℕ} : ∀ {e : AirExpr F}, e.CurrentRow width → ∀ r ∈ e.plain.refs, r < width := by
  intro e
  induction e with
  | constant c => intro _ r hr; simp [AirExpr.plain, AlgExpr.refs] at hr
  | column entry index => rintro ⟨rfl, hi⟩ r hr; simp [AirExpr.plain, AlgExpr.refs] at hr; omega
  | isFirstRow => intro h; exact h.elim
  | isLastRow => intro h; exact h.elim
  | isTransition => intro h; exact h.elim
  | add x y hx hy | sub x y hx hy | mul x y hx hy =>
    rintro ⟨h1, h2⟩ r hr
    simp only [AirExpr.plain, AlgExpr.refs, List.mem_append] at hr
    exact hr.elim (hx h1 r) (hy h2 r)
  | neg x hx =>
    intro h1 r hr
    exact hx h1 r hr

/-- On two rows, without other traces, the conversion does not panic. -/
theorem extractExpr_twoRows {columns : List String} {e : AirExpr F} (h : e.TwoRows columns.length) :
    e.CurrentRow columns.length ∨ extractExpr columns e = .error .unsupported := by
  have key : ∀ {e : AirExpr F}, e.TwoRows columns.length → ∃ s, symbolicToAlgebraic columns e = .ok s := by
    intro e
    induction e with
    | constant c => intro _; exact ⟨_, rfl⟩
    | column entry index =>
      rintro ⟨rfl | rfl, hi⟩
      · refine ⟨.reference (.witness index false), ?_⟩
        simp [symbolicToAlgebraic, symbolicVariable, hi, bind, Except.bind, pure, Except.pure]
      · refine ⟨.reference (.witness index true), ?_⟩
        simp [symbolicToAlgebraic, symbolicVariable, hi, bind, Except.bind, pure, Except.pure]
    | isFirstRow => intro h; exact ⟨_, rfl⟩
    | isLastRow => intro h; exact ⟨_, rfl⟩
    | isTransition => intro h; exact ⟨_, rfl⟩
    | add x y hx hy | sub x y hx hy | mul x y hx hy =>
      rintro ⟨h1, h2⟩
      obtain ⟨sx, hsx⟩ := hx h1
      obtain ⟨sy, hsy⟩ := hy h2
      exact ⟨_, by simp only [symbolicToAlgebraic, hsx, hsy, bind, Except.bind, pure, Except.pure]; rfl⟩
    | neg x hx =>
      intro h1
      obtain ⟨sx, hsx⟩ := hx h1
      exact ⟨_, by simp only [symbolicToAlgebraic, hsx, bind, Except.bind, pure, Except.pure]; rfl⟩
  have conv : ∀ (s : AlgExpr F OpenVmRef), (∃ t, tryConvert s = .ok t) ∨ tryConvert s = .error .unsupported := by
    intro s
    induction s with
    | reference r =>
      cases r with
      | witness id next => cases next <;> simp [tryConvert, OpenVmRef.tryInto, bind, Except.bind, pure, Except.pure]
      | _ => simp [tryConvert, OpenVmRef.tryInto, bind, Except.bind, pure, Except.pure]
    | number n => exact .inl ⟨_, rfl⟩
    | binary l op r hl hr =>
      rcases hl with ⟨t, ht⟩ | ht
      · rcases hr with ⟨u, hu⟩ | hu
        · exact .inl ⟨_, by simp only [tryConvert, ht, hu, bind, Except.bind, pure, Except.pure]; rfl⟩
        · exact .inr (by simp only [tryConvert, ht, hu, bind, Except.bind, pure, Except.pure])
      · exact .inr (by simp only [tryConvert, ht, bind, Except.bind, pure, Except.pure])
    | minus e he =>
      rcases he with ⟨t, ht⟩ | ht
      · exact .inl ⟨_, by simp only [tryConvert, ht, bind, Except.bind, pure, Except.pure]; rfl⟩
      · exact .inr (by simp only [tryConvert, ht, bind, Except.bind, pure, Except.pure])
  obtain ⟨s, hs⟩ := key h
  rcases conv s with ⟨t, ht⟩ | ht
  · left
    exact extractExpr_ok (r := t) (by simp only [extractExpr, hs, bind, Except.bind, ht])
  · right
    simp only [extractExpr, hs, bind, Except.bind, ht]

/-- An error of one expression that is not a panic comes from the next row or from a selector. -/
theorem extractExpr_unsupported {columns : List String} {e : AirExpr F}
    (h : extractExpr columns e = .error .unsupported) :
    e.TwoRows columns.length ∧ ¬ e.CurrentRow columns.length := by
  have hno : ¬ e.CurrentRow columns.length := by
    intro hc
    rw [extractExpr_currentRow hc] at h
    exact absurd h (by simp)
  refine ⟨?_, hno⟩
  clear hno
  have key : ∀ {e : AirExpr F} {s}, symbolicToAlgebraic columns e = .ok s → e.TwoRows columns.length := by
    intro e
    induction e with
    | constant c => intro _ _; trivial
    | column entry index =>
      intro s h
      simp only [symbolicToAlgebraic, symbolicVariable, bind, Except.bind, pure, Except.pure] at h
      cases entry with
      | main part offset =>
        by_cases hp : part = 0
        · by_cases hi : index < columns.length
          · by_cases ho : offset = 0
            · subst hp ho; exact ⟨.inl rfl, hi⟩
            · by_cases ho1 : offset = 1
              · subst hp ho1; exact ⟨.inr rfl, hi⟩
              · simp [hp, ho, ho1] at h
          · simp only [hp, ne_eq, not_true_eq_false, if_false, hi] at h
            split at h <;> simp_all
        · simp [hp] at h
      | other k => simp at h
    | isFirstRow => intro _ _; trivial
    | isLastRow => intro _ _; trivial
    | isTransition => intro _ _; trivial
    | add x y hx hy | sub x y hx hy | mul x y hx hy =>
      intro s h
      simp only [symbolicToAlgebraic, bind, Except.bind, pure, Except.pure] at h
      cases hsx : symbolicToAlgebraic columns x with
      | error e => simp [hsx] at h
      | ok sx =>
        cases hsy : symbolicToAlgebraic columns y with
        | error e => simp [hsx, hsy] at h
        | ok sy => exact ⟨hx hsx, hy hsy⟩
    | neg x hx =>
      intro s h
      simp only [symbolicToAlgebraic, bind, Except.bind, pure, Except.pure] at h
      cases hsx : symbolicToAlgebraic columns x with
      | error e => simp [hsx] at h
      | ok sx => exact hx hsx
  have pan : ∀ {e : AirExpr F} {x}, symbolicToAlgebraic columns e = .error x → x = .panic := by
    intro e
    induction e with
    | constant c => intro x h; simp [symbolicToAlgebraic] at h
    | column entry index =>
      intro x h
      simp only [symbolicToAlgebraic, symbolicVariable, bind, Except.bind, pure, Except.pure] at h
      cases entry with
      | main part offset =>
        simp only at h
        split at h <;> rename_i hh
        · simp only [Except.error.injEq] at h
          subst h
          split at hh
          · simpa using hh.symm
          · split at hh
            · simpa using hh.symm
            · split at hh
              · exact absurd hh (by simp)
              · simpa using hh.symm
        · exact absurd h (by simp)
      | other k => simpa using h.symm
    | isFirstRow => intro x h; simp [symbolicToAlgebraic] at h
    | isLastRow => intro x h; simp [symbolicToAlgebraic] at h
    | isTransition => intro x h; simp [symbolicToAlgebraic] at h
    | add x y hx hy | sub x y hx hy | mul x y hx hy =>
      intro s h
      simp only [symbolicToAlgebraic, bind, Except.bind, pure, Except.pure] at h
      cases hsx : symbolicToAlgebraic columns x with
      | error e => simp [hsx] at h; subst h; exact hx hsx
      | ok sx =>
        cases hsy : symbolicToAlgebraic columns y with
        | error e => simp [hsx, hsy] at h; subst h; exact hy hsy
        | ok sy => simp [hsx, hsy] at h
    | neg x hx =>
      intro s h
      simp only [symbolicToAlgebraic, bind, Except.bind, pure, Except.pure] at h
      cases hsx : symbolicToAlgebraic columns x with
      | error e => simp [hsx] at h; subst h; exact hx hsx
      | ok sx => simp [hsx] at h
  simp only [extractExpr, bind, Except.bind] at h
  cases hs : symbolicToAlgebraic columns e with
  | error x =>
    simp only [hs, Except.error.injEq] at h
    subst h
    exact absurd (pan hs) (by simp)
  | ok s => exact key hs

/-! ## One AIR -/

theorem getColumns_length {a : VmAir F} {l : List String} (h : getColumns a = .ok l) :
    l.length = a.width ∧ a.NamesFit := by
  unfold getColumns at h
  unfold VmAir.NamesFit
  split at h
  · rename_i n hn
    split at h
    · rename_i hl
      simp only [Except.ok.injEq] at h
      subst h
      refine ⟨hl, ?_⟩
      intro l hl'
      rw [hn] at hl'
      simp only [Option.some.injEq] at hl'
      subst hl'
      exact hl
    · exact absurd h (by simp)
  · rename_i hn
    simp only [Except.ok.injEq] at h
    subst h
    refine ⟨by simp, ?_⟩
    intro l hl'
    rw [hn] at hl'
    exact absurd hl' (by simp)

theorem getColumns_total {a : VmAir F} (h : a.NamesFit) : ∃ l, getColumns a = .ok l ∧ l.length = a.width := by
  unfold getColumns
  cases hn : a.columnNames with
  | some l => exact ⟨l, by simp [h l hn], h l hn⟩
  | none => exact ⟨_, rfl, by simp⟩

theorem extractMachine_inv {a : VmAir F} {r : SymMachine F ℕ × AirMetrics} (h : extractMachine a = .ok r) :
    a.Supported ∧ r.1.constraints = (a.constraints.map AirExpr.plain).map AlgExpr.toConstraint ∧
      r.1.bus = a.interactions.map (fun i => ⟨i.busIndex, i.count.plain, i.message.map AirExpr.plain⟩) ∧
      r.1.derived = [] ∧ r.2 = getAirMetrics a := by
  simp only [extractMachine, bind, Except.bind, pure, Except.pure] at h
  cases hc : getColumns a with
  | error e => simp [hc] at h
  | ok columns =>
    simp only [hc] at h
    obtain ⟨hlen, hfit⟩ := getColumns_length hc
    cases h1 : a.constraints.mapM (extractExpr columns) with
    | error e => simp [h1] at h
    | ok cs =>
      simp only [h1] at h
      cases h2 : a.interactions.mapM (extractInteraction columns) with
      | error e => simp [h2] at h
      | ok bs =>
        simp only [h2, Except.ok.injEq] at h
        subst h
        have f1 := exceptMapM_ok h1
        have f2 := exceptMapM_ok h2
        have inter : ∀ {i : AirInteraction F} {b}, extractInteraction columns i = .ok b →
            (∀ e ∈ i.count :: i.message, e.CurrentRow columns.length) ∧
              b = ⟨i.busIndex, i.count.plain, i.message.map AirExpr.plain⟩ := by
          intro i b hb
          simp only [extractInteraction, bind, Except.bind, pure, Except.pure] at hb
          cases hm : extractExpr columns i.count with
          | error e => simp [hm] at hb
          | ok m =>
            simp only [hm] at hb
            cases ha : i.message.mapM (extractExpr columns) with
            | error e => simp [ha] at hb
            | ok as =>
              simp only [ha, Except.ok.injEq] at hb
              have f := exceptMapM_ok ha
              have hargs : as = i.message.map AirExpr.plain ∧ ∀ e ∈ i.message, e.CurrentRow columns.length := by
                clear ha hb
                generalize i.message = l at f
                induction f with
                | nil => simp
                | cons hh _ ih =>
                  obtain ⟨ih1, ih2⟩ := ih
                  refine ⟨by rw [ih1, extractExpr_eq hh]; rfl, ?_⟩
                  intro e he
                  rcases List.mem_cons.1 he with rfl | he
                  · exact extractExpr_ok hh
                  · exact ih2 e he
              constructor
              · intro e he
                rcases List.mem_cons.1 he with rfl | he
                · exact extractExpr_ok hm
                · exact hargs.2 e he
              · rw [← hb, hargs.1, extractExpr_eq hm]
        have hcs : cs = a.constraints.map AirExpr.plain ∧ ∀ e ∈ a.constraints, e.CurrentRow columns.length := by
          clear h1
          generalize a.constraints = l at f1
          induction f1 with
          | nil => simp
          | cons hh _ ih =>
            obtain ⟨ih1, ih2⟩ := ih
            refine ⟨by rw [ih1, extractExpr_eq hh]; rfl, ?_⟩
            intro e he
            rcases List.mem_cons.1 he with rfl | he
            · exact extractExpr_ok hh
            · exact ih2 e he
        have hbs : bs = a.interactions.map (fun i => ⟨i.busIndex, i.count.plain, i.message.map AirExpr.plain⟩) ∧
            ∀ i ∈ a.interactions, ∀ e ∈ i.count :: i.message, e.CurrentRow columns.length := by
          clear h2
          generalize a.interactions = l at f2
          induction f2 with
          | nil => simp
          | cons hh _ ih =>
            obtain ⟨ih1, ih2⟩ := ih
            obtain ⟨hi1, hi2⟩ := inter hh
            refine ⟨by rw [ih1, hi2]; rfl, ?_⟩
            intro i hi
            rcases List.mem_cons.1 hi with rfl | hi
            · exact hi1
            · exact ih2 i hi
        refine ⟨⟨hfit, ?_⟩, by rw [hcs.1], hbs.1, rfl, rfl⟩
        intro e he
        rw [← hlen]
        rcases List.mem_append.1 he with he | he
        · exact hcs.2 e he
        · obtain ⟨i, hi, he⟩ := List.mem_flatMap.1 he
          exact hbs.2 i hi e he

theorem extractMachine_total {a : VmAir F} (h : a.Supported) : ∃ r, extractMachine a = .ok r := by
  obtain ⟨columns, hc, hlen⟩ := getColumns_total h.1
  have hrow : ∀ e ∈ a.exprs, ∃ r, extractExpr columns e = .ok r := fun e he =>
    ⟨_, extractExpr_currentRow (by rw [hlen]; exact h.2 e he)⟩
  obtain ⟨cs, h1⟩ := exceptMapM_total (f := extractExpr columns) (l := a.constraints) fun e he =>
    hrow e (by simp [VmAir.exprs, he])
  obtain ⟨bs, h2⟩ := exceptMapM_total (f := extractInteraction columns) (l := a.interactions) (by
    intro i hi
    obtain ⟨m, hm⟩ := hrow i.count (List.mem_append_right _ (List.mem_flatMap.2 ⟨i, hi, by simp⟩))
    obtain ⟨as, has⟩ := exceptMapM_total (f := extractExpr columns) (l := i.message) fun e he =>
      hrow e (List.mem_append_right _ (List.mem_flatMap.2 ⟨i, hi, by simp [he]⟩))
    refine ⟨⟨i.busIndex, m, as⟩, ?_⟩
    simp only [extractInteraction, hm, has, bind, Except.bind, pure, Except.pure])
  refine ⟨(⟨cs.map AlgExpr.toConstraint, bs, []⟩, getAirMetrics a), ?_⟩
  simp only [extractMachine, hc, h1, h2, bind, Except.bind, pure, Except.pure]

theorem toConstraint_zero [CommRing F] (σ : ℕ → F) (e : AlgExpr F ℕ) : e.toConstraint.value σ = 0 ↔ e.value σ = 0 := by
  cases e <;> simp [AlgExpr.toConstraint, AlgExpr.value]

theorem toConstraint_refs (e : AlgExpr F ℕ) : e.toConstraint.refs = e.refs := by
  cases e <;> rfl

theorem extractMachine_agrees [CommRing F] {a : VmAir F} {r : SymMachine F ℕ × AirMetrics}
    (h : extractMachine a = .ok r) : r.1.Agrees a := by
  obtain ⟨⟨_, hs⟩, hc, hb, hd, _⟩ := extractMachine_inv h
  have h1 : ∀ e ∈ a.constraints, e.CurrentRow a.width := fun e he => hs e (by simp [VmAir.exprs, he])
  have h2 : ∀ i ∈ a.interactions, ∀ e ∈ i.count :: i.message, e.CurrentRow a.width := fun i hi e he =>
    hs e (List.mem_append_right _ (List.mem_flatMap.2 ⟨i, hi, he⟩))
  refine ⟨?_, ?_, hd, ?_⟩
  · intro env
    rw [hc]
    clear hc hb hd hs h2 h
    generalize a.constraints = l at h1
    induction l with
    | nil => exact .nil
    | cons e l ih =>
      refine .cons ?_ (ih fun e he => h1 e (by simp [he]))
      rw [toConstraint_zero, plain_value env (h1 e (by simp))]
  · intro env
    rw [hb, List.map_map]
    refine List.map_congr_left fun i hi => ?_
    simp only [Function.comp_apply, SymBus.message, AirInteraction.message', List.map_map, Prod.mk.injEq, true_and]
    refine ⟨plain_value env (h2 i hi _ (by simp)), ?_⟩
    refine List.map_congr_left fun e he => ?_
    exact plain_value env (h2 i hi _ (by simp [he]))
  · intro x hx
    simp only [SymMachine.refs, SymMachine.exprs, hc, hb, List.mem_flatMap, List.mem_append, List.mem_map] at hx
    obtain ⟨e, he, hx⟩ := hx
    rcases he with ⟨e', ⟨e'', he, rfl⟩, rfl⟩ | ⟨b, ⟨i, hi, rfl⟩, he⟩
    · rw [toConstraint_refs] at hx
      exact plain_refs (h1 _ he) x hx
    · rcases List.mem_cons.1 he with rfl | he
      · exact plain_refs (h2 i hi _ (by simp)) x hx
      · obtain ⟨e', he', rfl⟩ := List.mem_map.1 he
        exact plain_refs (h2 i hi _ (List.mem_cons_of_mem _ he')) x hx

theorem extractInteraction_error {columns : List String} {i : AirInteraction F} {x : ExtractError}
    (h : extractInteraction columns i = .error x) : ∃ e ∈ i.count :: i.message, extractExpr columns e = .error x := by
  simp only [extractInteraction, bind, Except.bind, pure, Except.pure] at h
  cases hm : extractExpr columns i.count with
  | error e =>
    simp only [hm, Except.error.injEq] at h
    subst h
    exact ⟨_, by simp, hm⟩
  | ok m =>
    simp only [hm] at h
    cases ha : i.message.mapM (extractExpr columns) with
    | error e =>
      simp only [ha, Except.error.injEq] at h
      subst h
      obtain ⟨e', he, hf⟩ := exceptMapM_error ha
      exact ⟨e', by simp [he], hf⟩
    | ok as => simp [ha] at h

theorem extractMachine_error {a : VmAir F} {x : ExtractError} (h : extractMachine a = .error x) :
    (¬ a.NamesFit ∧ x = .panic) ∨ ∃ columns, columns.length = a.width ∧ ∃ e ∈ a.exprs, extractExpr columns e = .error x := by
  simp only [extractMachine, bind, Except.bind, pure, Except.pure] at h
  cases hc : getColumns a with
  | error e =>
    left
    simp only [hc, Except.error.injEq] at h
    subst h
    constructor
    · intro hf
      obtain ⟨l, hl, _⟩ := getColumns_total hf
      rw [hc] at hl
      exact absurd hl (by simp)
    · unfold getColumns at hc
      split at hc
      · split at hc
        · exact absurd hc (by simp)
        · simpa using hc.symm
      · exact absurd hc (by simp)
  | ok columns =>
    right
    refine ⟨columns, (getColumns_length hc).1, ?_⟩
    simp only [hc] at h
    cases h1 : a.constraints.mapM (extractExpr columns) with
    | error e =>
      simp only [h1, Except.error.injEq] at h
      subst h
      obtain ⟨e', he, hf⟩ := exceptMapM_error h1
      exact ⟨e', by simp [VmAir.exprs, he], hf⟩
    | ok cs =>
      simp only [h1] at h
      cases h2 : a.interactions.mapM (extractInteraction columns) with
      | error e =>
        simp only [h2, Except.error.injEq] at h
        subst h
        obtain ⟨i, hi, hf⟩ := exceptMapM_error h2
        obtain ⟨e', he, hf⟩ := extractInteraction_error hf
        exact ⟨e', List.mem_append_right _ (List.mem_flatMap.2 ⟨i, hi, he⟩), hf⟩
      | ok bs => simp [h2] at h

end

end Verif
