import Verif.Proofs.FreeVariables
import Verif.Proofs.Reachability
import Verif.Props.Reachability
import Verif.Proofs.Detection

/-!
# Results that do not depend on the iteration order of hash collections (C107)
-/

namespace Verif
namespace AnyOrder

open GExpr

set_option linter.unusedSectionVars false

variable {p : ℕ} [Fact p.Prime] {V : Type} [LinearOrder V]

/-! ### Disconnected columns -/

theorem keeps_congr {k k' : List (SVar V)} (h : ∀ v, v ∈ k ↔ v ∈ k') (s : Solver p V) :
    s.keeps k = s.keeps k' := by
  funext v
  unfold Solver.keeps
  cases v <;> simp [h]

theorem retain_congr {k k' : List (SVar V)} (h : ∀ v, v ∈ k ↔ v ∈ k') (s : Solver p V) :
    s.retain k = s.retain k' := by
  unfold Solver.retain
  rw [keeps_congr h s]

theorem retainBusTouching_congr (f : ZMod p → Bool) {k k' : List V} (h : ∀ v, v ∈ k ↔ v ∈ k')
    (l : List (BusInteraction (GExpr p V))) :
    retainBusTouching f k l = retainBusTouching f k' l := by
  induction l with
  | nil => rfl
  | cons b t ih => simp only [retainBusTouching, ih, h]

theorem statefulVariables_occur {f : ZMod p → Bool} {l : List (BusInteraction (GExpr p V))} {r : List V}
    (h : statefulVariables f l = .ok r) : ∀ v ∈ r, ∃ b ∈ l, v ∈ busVars b := by
  induction l generalizing r with
  | nil => cases h; simp
  | cons b t ih =>
    rw [statefulVariables] at h
    cases h1 : knownBusId b with
    | error x => rw [h1] at h; cases h
    | ok id =>
      rw [h1, ok_bind] at h
      cases h2 : statefulVariables f t with
      | error x => rw [h2] at h; cases h
      | ok rest =>
        rw [h2, ok_bind] at h
        cases h
        intro v hv
        have : v ∈ busVars b ∨ v ∈ rest := by
          split at hv
          · exact List.mem_append.1 hv
          · exact Or.inr hv
        rcases this with hv | hv
        · exact ⟨b, by simp, hv⟩
        · obtain ⟨b', hb, hv⟩ := ih h2 v hv
          exact ⟨b', by simp [hb], hv⟩

theorem reachable_same (ord₁ ord₂ : SetOrder V) {ix : Indexed p V} (hi : ix.Inv) (init vs : List V)
    {n₁ n₂ : ℕ} (hv : ∀ v, v ∈ init ∨ ix.sys.Mentions v → v ∈ vs) (h1 : vs.length < n₁)
    (h2 : vs.length < n₂) :
    ∃ k₁ k₂, reachable ord₁ n₁ init ix = .ok (some k₁) ∧ reachable ord₂ n₂ init ix = .ok (some k₂) ∧
      ∀ v, v ∈ k₁ ↔ v ∈ k₂ := by
  have hb : ∀ v, Reachable ix.sys (· ∈ init) (· ∈ ([] : List V)) v → v ∈ vs := fun v hr => by
    rcases List.mem_append.1 (reachable_bound (fun _ h => h) hr) with h | h
    · exact hv v (Or.inl h)
    · exact hv v (Or.inr (mentions_iff.2 h))
  obtain ⟨o₁, e₁, a₁, b₁⟩ := reachableExceptBlocked_spec ord₁ hi init [] n₁
  obtain ⟨o₂, e₂, a₂, b₂⟩ := reachableExceptBlocked_spec ord₂ hi init [] n₂
  cases o₁ with
  | none => exact absurd rfl (b₁ vs hb h1)
  | some k₁ =>
    cases o₂ with
    | none => exact absurd rfl (b₂ vs hb h2)
    | some k₂ =>
      exact ⟨k₁, k₂, e₁, e₂, fun v => ((a₁ k₁ rfl).2 v).trans ((a₂ k₂ rfl).2 v).symm⟩

theorem disconnected (h : Handler p) (f : ZMod p → Bool) (ord₁ ord₂ : SetOrder V) {ix : Indexed p V}
    (hi : ix.Inv) (solver : Solver p V) (vs : List V) (hv : ∀ v, ix.sys.Mentions v → v ∈ vs) {n₁ n₂ : ℕ}
    (h1 : vs.length < n₁) (h2 : vs.length < n₂) :
    removeDisconnected h f ord₁ n₁ ix solver = removeDisconnected h f ord₂ n₂ ix solver := by
  unfold removeDisconnected
  cases hs : statefulVariables f ix.sys.bus with
  | error x => rfl
  | ok init =>
    have hinit : ∀ v, v ∈ init ∨ ix.sys.Mentions v → v ∈ vs := by
      rintro v (hv' | hm)
      · obtain ⟨b, hb, hvb⟩ := statefulVariables_occur hs v hv'
        exact hv v (mentions_iff.2 (by
          unfold systemVars
          exact List.mem_append.2 (Or.inr (List.mem_flatMap.2 ⟨b, hb, hvb⟩))))
      · exact hv v hm
    obtain ⟨k₁, k₂, e₁, e₂, hk⟩ := reachable_same ord₁ ord₂ hi init vs hinit h1 h2
    have hk' : ∀ v : SVar V, v ∈ k₁.map SVar.original ↔ v ∈ k₂.map SVar.original := by
      intro v
      simp only [List.mem_map, hk]
    have hrun : SolverOp.run h solver (.retain k₁) = SolverOp.run h solver (.retain k₂) := by
      simp only [SolverOp.run, retain_congr hk' solver]
    simp only [liftPanic, Solver.stop_bind, e₁, e₂, hrun, retainBusTouching_congr f hk, hk]

/-! ### Parts of a system -/

theorem filterMap_perm_systems {l l' : List (ConstraintRef p V)} (h : l.Perm l') :
    (systemOfRefs l).algebraic.Perm (systemOfRefs l').algebraic ∧
      (systemOfRefs l).bus.Perm (systemOfRefs l').bus :=
  ⟨h.filterMap _, h.filterMap _⟩

theorem itemsReferencing_perm (ix : Indexed p V) {l l' : List V} (h : ∀ v, v ∈ l ↔ v ∈ l') :
    (ix.itemsReferencing l).Perm (ix.itemsReferencing l') := by
  refine (List.perm_ext_iff_of_nodup (nodup_eraseDups _) (nodup_eraseDups _)).2 fun x => ?_
  have := @Indexed.mem_itemsReferencing p V _ ix l x
  have h' := @Indexed.mem_itemsReferencing p V _ ix l' x
  exact this.trans (by simp only [h]; exact h'.symm)

theorem splitLoop_same (ord₁ ord₂ : SetOrder V) {ix : Indexed p V} (hi : ix.Inv) (f₁ f₂ : ℕ) :
    ∀ (n₁ n₂ : ℕ) (rem : List V) {ps₁ ps₂ : List (ConstraintSystem p V)},
      splitLoop ord₁ ix f₁ n₁ rem = .ok (some ps₁) → splitLoop ord₂ ix f₂ n₂ rem = .ok (some ps₂) →
      List.Forall₂ (fun a b : ConstraintSystem p V => a.algebraic.Perm b.algebraic ∧
        a.bus.Perm b.bus ∧ a.derived = b.derived) ps₁ ps₂ := by
  intro n₁
  induction n₁ with
  | zero =>
    intro n₂ rem ps₁ ps₂ h1 h2
    cases rem with
    | nil =>
      rw [splitLoop] at h1 h2
      cases h1; cases h2; exact .nil
    | cons v t => rw [splitLoop] at h1; cases h1
  | succ n₁ ih =>
    intro n₂ rem ps₁ ps₂ h1 h2
    cases rem with
    | nil =>
      rw [splitLoop] at h1 h2
      cases h1; cases h2; exact .nil
    | cons v t =>
      cases n₂ with
      | zero => rw [splitLoop] at h2; cases h2
      | succ n₂ =>
        obtain ⟨o₁, e₁, a₁, -⟩ := reachableExceptBlocked_spec ord₁ hi [v] [] f₁
        obtain ⟨o₂, e₂, a₂, -⟩ := reachableExceptBlocked_spec ord₂ hi [v] [] f₂
        have e₁' : reachable ord₁ f₁ [v] ix = .ok o₁ := e₁
        have e₂' : reachable ord₂ f₂ [v] ix = .ok o₂ := e₂
        rw [splitLoop, e₁', ok_bind] at h1
        rw [splitLoop, e₂', ok_bind] at h2
        cases o₁ with
        | none => cases h1
        | some k₁ =>
          cases o₂ with
          | none => cases h2
          | some k₂ =>
            have hk : ∀ v, v ∈ k₁ ↔ v ∈ k₂ := fun v =>
              ((a₁ k₁ rfl).2 v).trans ((a₂ k₂ rfl).2 v).symm
            simp only [Indexed.constraintsReferencing_ok hi, ok_bind, hk] at h1 h2
            cases r1 : splitLoop ord₁ ix f₁ n₁ (t.filter fun w => w ∉ k₂) with
            | error x => rw [r1] at h1; cases h1
            | ok q₁ =>
              cases r2 : splitLoop ord₂ ix f₂ n₂ (t.filter fun w => w ∉ k₂) with
              | error x => rw [r2] at h2; cases h2
              | ok q₂ =>
                rw [r1, ok_bind] at h1
                rw [r2, ok_bind] at h2
                cases q₁ with
                | none => cases h1
                | some q₁ =>
                  cases q₂ with
                  | none => cases h2
                  | some q₂ =>
                    cases h1; cases h2
                    have hp := (itemsReferencing_perm ix (l := ord₁.order k₁) (l' := ord₂.order k₂)
                      fun v => by rw [(ord₁.perm k₁).mem_iff, (ord₂.perm k₂).mem_iff, hk]).filterMap
                        (refAt ix.sys)
                    obtain ⟨g1, g2⟩ := filterMap_perm_systems hp
                    exact .cons ⟨g1, g2, rfl⟩ (ih n₂ _ r1 r2)

/-! ### Ranges of columns -/

theorem mapM_rowCell (col : ℕ) (rows : List TraceRow) :
    rows.mapM (fun row => rowCell row col) =
      if ∀ row ∈ rows, col < row.cells.length then
        .ok (rows.map fun row => (row.cells[col]?).getD 0) else .error .panic := by
  induction rows with
  | nil => rfl
  | cons r t ih =>
    rw [List.mapM_cons, ih]
    by_cases hr : col < r.cells.length
    · simp only [rowCell, List.getElem?_eq_getElem hr]
      by_cases ht : ∀ row ∈ t, col < row.cells.length
      · rw [if_pos ht, if_pos (by simpa [hr] using ht)]
        simp [bind, Except.bind, pure, Except.pure, hr]
      · rw [if_neg ht, if_neg (by simpa [hr] using ht)]
        rfl
    · rw [if_neg (show ¬ ∀ row ∈ r :: t, col < row.cells.length from fun hall => hr (hall r (by simp)))]
      simp only [rowCell, List.getElem?_eq_none (not_lt.1 hr)]
      rfl

theorem columnRange_perm {rows rows' : List TraceRow} (h : rows.Perm rows') (col : ℕ) :
    columnRange rows col = columnRange rows' col := by
  unfold columnRange
  rw [mapM_rowCell, mapM_rowCell]
  have hiff : (∀ row ∈ rows, col < row.cells.length) ↔ ∀ row ∈ rows', col < row.cells.length := by
    simp only [h.mem_iff]
  simp only [hiff]
  split
  · have hs : (rows.map fun row => (row.cells[col]?).getD 0).insertionSort (· ≤ ·) =
        (rows'.map fun row => (row.cells[col]?).getD 0).insertionSort (· ≤ ·) := by
      refine List.Perm.eq_of_pairwise (le := (· ≤ ·)) (fun _ _ _ _ => le_antisymm)
        (List.pairwise_insertionSort _ _) (List.pairwise_insertionSort _ _) ?_
      exact (List.perm_insertionSort _ _).trans ((h.map _).trans (List.perm_insertionSort _ _).symm)
    simp only [bind, Except.bind, hs]
  · rfl

theorem detectColumnRanges_perm {rows rows' : List TraceRow} (h : rows.Perm rows') :
    detectColumnRanges rows = detectColumnRanges rows' := by
  unfold detectColumnRanges
  cases rows with
  | nil => rw [List.nil_perm.1 h]
  | cons a t =>
    cases rows' with
    | nil => exact absurd h (by simp)
    | cons b t' =>
      simp only [columnRange_perm h]
      by_cases hc : ∀ row ∈ a :: t, row.cells.length = a.cells.length
      · have hb : b.cells.length = a.cells.length := hc b (h.mem_iff.2 (by simp))
        rw [if_pos (by rw [List.all_eq_true]; simpa using hc), if_pos (by
          rw [List.all_eq_true]
          intro row hrow
          have := hc row (h.mem_iff.2 hrow)
          simp [this, hb]), hb]
      · rw [if_neg (by rw [List.all_eq_true]; simpa using hc), if_neg]
        rw [List.all_eq_true]
        intro hall
        have hall' : ∀ row ∈ b :: t', row.cells.length = b.cells.length := by simpa using hall
        apply hc
        intro row hrow
        rw [hall' row (h.mem_iff.1 hrow), hall' a (h.mem_iff.1 (by simp))]

theorem mapM_values {α β : Type} (f : α → Except LoopStop β) (l : List (ℕ × α)) :
    (∀ m, (l.mapM fun x => do let r ← f x.2; pure (x.1, r)) = .ok m →
      (∀ x ∈ l, ∃ r, f x.2 = .ok r) ∧
      ∀ k, m.lookup k = (l.lookup k).bind fun v => (f v).toOption) ∧
    ((∀ x ∈ l, ∃ r, f x.2 = .ok r) →
      ∃ m, (l.mapM fun x => do let r ← f x.2; pure (x.1, r)) = .ok m) := by
  induction l with
  | nil => exact ⟨fun m h => by cases h; simp, fun _ => ⟨[], rfl⟩⟩
  | cons a t ih =>
    obtain ⟨i1, i2⟩ := ih
    rw [List.mapM_cons]
    constructor
    · intro m h
      cases ha : f a.2 with
      | error x => rw [ha] at h; cases h
      | ok r =>
        rw [ha] at h
        cases ht : t.mapM fun x => do let r ← f x.2; pure (x.1, r) with
        | error x =>
          simp only [bind, Except.bind, pure, Except.pure] at h ht
          rw [ht] at h; cases h
        | ok m' =>
          obtain ⟨j1, j2⟩ := i1 m' ht
          simp only [bind, Except.bind, pure, Except.pure] at h ht
          rw [ht] at h
          cases h
          refine ⟨fun x hx => ?_, fun k => ?_⟩
          · rcases List.mem_cons.1 hx with rfl | hx
            · exact ⟨r, ha⟩
            · exact j1 x hx
          · obtain ⟨a1, a2⟩ := a
            simp only [List.lookup_cons]
            by_cases hk : k = a1
            · subst hk
              simp only [beq_self_eq_true, Option.bind_some]
              simp only at ha
              rw [ha]; rfl
            · simp only [beq_eq_false_iff_ne.2 hk]
              exact j2 k
    · intro hall
      obtain ⟨r, hr⟩ := hall a (by simp)
      obtain ⟨m, hm⟩ := i2 fun x hx => hall x (by simp [hx])
      refine ⟨(a.1, r) :: m, ?_⟩
      rw [hm, hr]
      rfl

theorem detectByPc_perm {rows rows' : List TraceRow} (h : rows.Perm rows') {m : List (ℕ × List (ℕ × ℕ))}
    (hm : detectColumnRangesByPc rows = .ok m) :
    ∃ m', detectColumnRangesByPc rows' = .ok m' ∧ ∀ pc, m'.lookup pc = m.lookup pc := by
  have hlook : ∀ pc, ((rowsByPc rows').lookup pc).bind (fun v => (detectColumnRanges v).toOption) =
      ((rowsByPc rows).lookup pc).bind fun v => (detectColumnRanges v).toOption := by
    intro pc
    rw [rowsByPc_lookup, rowsByPc_lookup]
    have hp := h.filter fun row => decide (row.pc = pc)
    have he : (rows.filter fun row => decide (row.pc = pc)) = [] ↔
        (rows'.filter fun row => decide (row.pc = pc)) = [] :=
      ⟨fun e => by rw [e] at hp; exact hp.nil_eq.symm, fun e => by rw [e] at hp; exact hp.eq_nil⟩
    by_cases h0 : (rows.filter fun row => decide (row.pc = pc)) = []
    · simp [h0, he.1 h0]
    · simp only [h0, mt he.2 h0, if_false, Option.bind_some, detectColumnRanges_perm hp]
  unfold detectColumnRangesByPc at hm ⊢
  obtain ⟨h1, h2⟩ := (mapM_values detectColumnRanges (rowsByPc rows)).1 m hm
  obtain ⟨m', hm'⟩ := (mapM_values detectColumnRanges (rowsByPc rows')).2 fun x hx => by
    have hl := mem_lookup (groupByKey_keys _) hx
    change (rowsByPc rows').lookup x.1 = some x.2 at hl
    rw [rowsByPc_lookup] at hl
    split at hl
    · cases hl
    rename_i hne
    have hl2 := (Option.some.inj hl).symm
    have hp := h.filter fun row => decide (row.pc = x.1)
    have hl' : (rowsByPc rows).lookup x.1 = some (rows.filter fun row => decide (row.pc = x.1)) := by
      rw [rowsByPc_lookup, if_neg]
      intro e
      rw [e] at hp
      exact hne hp.nil_eq.symm
    obtain ⟨r, hr⟩ := h1 _ (pcMap_lookup_mem hl')
    exact ⟨r, by rw [hl2, ← detectColumnRanges_perm hp]; exact hr⟩
  refine ⟨m', hm', fun pc => ?_⟩
  rw [((mapM_values detectColumnRanges (rowsByPc rows')).1 m' hm').2 pc, h2 pc, hlook]

end AnyOrder
end Verif
