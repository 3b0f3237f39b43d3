import Verif.Proofs.TraceRows
import Verif.Proofs.Machine

/-!
# Proofs about the rows of the precompile
-/

set_option linter.unusedSectionVars false

namespace Verif

section
variable {F : Type}

theorem mem_mainColumns {m : SymMachine F ℕ} {id : ℕ} : id ∈ m.mainColumns ↔ id ∈ m.refs := by
  simp [SymMachine.mainColumns]

theorem mainColumns_nodup (m : SymMachine F ℕ) : m.mainColumns.Nodup :=
  (List.perm_insertionSort _ _).nodup_iff.2 (List.nodup_dedup _)

theorem mainColumns_sorted (m : SymMachine F ℕ) : m.mainColumns.Pairwise (· ≤ ·) :=
  List.pairwise_insertionSort _ _

theorem columnIndex_ok {columns : List ℕ} {id : ℕ} (h : id ∈ columns) :
    columnIndex columns id = .ok (columns.idxOf id) := by rw [columnIndex, if_pos h]

theorem indexPairs_ok {columns : List ℕ} {s : List (ℕ × ℕ)} (h : ∀ x ∈ s, x.2 ∈ columns) :
    indexPairs columns s = .ok (s.map fun x => (x.1, columns.idxOf x.2)) := by
  unfold indexPairs
  refine mapM_of_forall _ fun x hx => ?_
  rw [columnIndex_ok (h x hx)]
  rfl

variable [Field F] [DecidableEq F]

theorem columnValue_set {columns : List ℕ} (row : List F) (hl : row.length = columns.length) {id : ℕ}
    (hid : id ∈ columns) (v : F) (x : ℕ) :
    columnValue columns (row.set (columns.idxOf id) v) x = if x = id then v else columnValue columns row x := by
  unfold columnValue
  rw [List.getD_eq_getElem?_getD, List.getD_eq_getElem?_getD, List.getElem?_set]
  by_cases h : x = id
  · subst h
    have : columns.idxOf x < row.length := by
      rw [hl]
      exact List.idxOf_lt_length_iff.2 hid
    simp [this]
  · have : columns.idxOf id ≠ columns.idxOf x := fun e => h ((List.idxOf_inj hid).1 e).symm
    simp [this, h]

/-- The row agrees with the assignment in the given columns. -/
def AgreesOn (columns : List ℕ) (σ : ℕ → F) (done : ℕ → Prop) (row : List F) : Prop :=
  row.length = columns.length ∧ ∀ id ∈ columns, done id → columnValue columns row id = σ id

theorem AgreesOn.set {columns : List ℕ} {σ : ℕ → F} {done : ℕ → Prop} {row : List F}
    (h : AgreesOn columns σ done row) {id : ℕ} (hid : id ∈ columns) :
    AgreesOn columns σ (fun x => done x ∨ x = id) (row.set (columns.idxOf id) (σ id)) := by
  refine ⟨by simp [h.1], fun x hx hd => ?_⟩
  rw [columnValue_set row h.1 hid _ x]
  split
  · rename_i e
    rw [e]
  · rename_i e
    exact h.2 x hx (hd.resolve_right e)

theorem AgreesOn.mono {columns : List ℕ} {σ : ℕ → F} {done done' : ℕ → Prop} {row : List F}
    (h : AgreesOn columns σ done row) (hd : ∀ x, done' x → done x) : AgreesOn columns σ done' row :=
  ⟨h.1, fun x hx hx' => h.2 x hx (hd x hx')⟩

theorem copyCell_fold {columns : List ℕ} {σ : ℕ → F} {dummy : List F} (s : List (ℕ × ℕ))
    (hs : ∀ x ∈ s, x.2 ∈ columns ∧ dummy[x.1]? = some (σ x.2)) : ∀ {done : ℕ → Prop} {row : List F},
    AgreesOn columns σ done row →
    ∃ row', (s.map fun x => (x.1, columns.idxOf x.2)).foldlM (copyCell dummy) row = .ok row' ∧
      AgreesOn columns σ (fun x => done x ∨ ∃ c, (c, x) ∈ s) row' := by
  induction s with
  | nil =>
    intro done row h
    exact ⟨row, rfl, h.mono fun x hx => by simpa using hx⟩
  | cons y t ih =>
    intro done row h
    obtain ⟨h1, h2⟩ := hs y List.mem_cons_self
    obtain ⟨row', h3, h4⟩ := ih (fun x hx => hs x (List.mem_cons_of_mem _ hx)) (h.set h1)
    refine ⟨row', ?_, h4.mono ?_⟩
    · rw [List.map_cons, List.foldlM_cons, copyCell]
      simp only
      rw [h2]
      simp only
      rw [if_pos (by rw [h.1]; exact List.idxOf_lt_length_iff.2 h1)]
      exact h3
    · rintro x (hx | ⟨c, hx⟩)
      · exact .inl (.inl hx)
      · rcases List.mem_cons.1 hx with rfl | hx
        · exact .inl (.inr rfl)
        · exact .inr ⟨c, hx⟩

theorem copyCells_fold {columns : List ℕ} {σ : ℕ → F} (l : List (RowReference F × List (ℕ × ℕ)))
    (hl : ∀ x ∈ l, ∃ dummy, x.1.slice = .ok dummy ∧ ∀ y ∈ x.2, y.2 ∈ columns ∧ dummy[y.1]? = some (σ y.2)) :
    ∀ {done : ℕ → Prop} {row : List F}, AgreesOn columns σ done row →
    ∃ row', (l.map fun x => (x.1, x.2.map fun y => (y.1, columns.idxOf y.2))).foldlM copyCells row = .ok row' ∧
      AgreesOn columns σ (fun x => done x ∨ ∃ y ∈ l, ∃ c, (c, x) ∈ y.2) row' := by
  induction l with
  | nil =>
    intro done row h
    exact ⟨row, rfl, h.mono fun x hx => by simpa using hx⟩
  | cons y t ih =>
    intro done row h
    obtain ⟨dummy, h1, h2⟩ := hl y List.mem_cons_self
    obtain ⟨row1, h3, h4⟩ := copyCell_fold y.2 h2 h
    obtain ⟨row', h5, h6⟩ := ih (fun x hx => hl x (List.mem_cons_of_mem _ hx)) h4
    refine ⟨row', ?_, h6.mono ?_⟩
    · rw [List.map_cons, List.foldlM_cons, copyCells]
      simp only
      rw [h1]
      simp only [bind, Except.bind]
      rw [h3]
      exact h5
    · rintro x (hx | ⟨z, hz, hx⟩)
      · exact .inl (.inl hx)
      · rcases List.mem_cons.1 hz with rfl | hz
        · exact .inl (.inr hx)
        · exact .inr ⟨z, hz, hx⟩

theorem evalRow_ok {columns : List ℕ} {row : List F} (hl : row.length = columns.length) (e : AlgExpr F ℕ)
    (h : ∀ r ∈ e.refs, r ∈ columns) : evalRow columns row e = .ok (e.value (columnValue columns row)) := by
  induction e with
  | reference r =>
    have hr := h r (by simp [AlgExpr.refs])
    have : columns.idxOf r < row.length := by
      rw [hl]
      exact List.idxOf_lt_length_iff.2 hr
    rw [evalRow, rowValue, columnIndex_ok hr]
    simp only [bind, Except.bind]
    rw [List.getElem?_eq_getElem this]
    simp [AlgExpr.value, columnValue, this, pure, Except.pure]
  | number n => rfl
  | binary l op r ihl ihr =>
    have h1 := ihl fun x hx => h x (by simp [AlgExpr.refs, hx])
    have h2 := ihr fun x hx => h x (by simp [AlgExpr.refs, hx])
    cases op <;> rw [evalRow, h1, h2] <;> rfl
  | minus e ih =>
    rw [evalRow, ih fun x hx => h x (by simpa [AlgExpr.refs] using hx)]
    rfl

theorem computeValue_ok {columns : List ℕ} {row : List F} (hl : row.length = columns.length) (d : SymMethod F ℕ)
    (h : ∀ r ∈ d.refs, r ∈ columns) : computeValue columns row d = .ok (d.value (columnValue columns row)) := by
  cases d with
  | constant c => rfl
  | quotientOrZero e1 e2 =>
    rw [computeValue, evalRow_ok hl e1 fun x hx => h x (by simp [SymMethod.refs, hx]),
      evalRow_ok hl e2 fun x hx => h x (by simp [SymMethod.refs, hx])]
    simp only [bind, Except.bind, SymMethod.value]
    split
    · rfl
    · simp only [pure, Except.pure]
      rw [div_eq_mul_inv, mul_comm]

theorem method_value_congr {σ τ : ℕ → F} (d : SymMethod F ℕ) (h : ∀ r ∈ d.refs, σ r = τ r) :
    d.value σ = d.value τ := by
  cases d with
  | constant c => rfl
  | quotientOrZero e1 e2 =>
    rw [SymMethod.value, SymMethod.value, value_congr e1 fun x hx => h x (by simp [SymMethod.refs, hx]),
      value_congr e2 fun x hx => h x (by simp [SymMethod.refs, hx])]

theorem computeColumn_fold {columns : List ℕ} {σ : ℕ → F} (l : List (ℕ × SymMethod F ℕ)) :
    ∀ {done : ℕ → Prop} {row : List F}, AgreesOn columns σ done row →
    (∀ d ∈ l, σ d.1 = d.2.value σ) →
    (∀ before d after, l = before ++ d :: after → d.1 ∈ columns ∧ ∀ r ∈ d.2.refs, r ∈ columns ∧
      (done r ∨ ∃ d' ∈ before, d'.1 = r)) →
    ∃ row', l.foldlM (computeColumn columns) row = .ok row' ∧
      AgreesOn columns σ (fun x => done x ∨ ∃ d ∈ l, d.1 = x) row' := by
  induction l with
  | nil =>
    intro done row h _ _
    exact ⟨row, rfl, h.mono fun x hx => by simpa using hx⟩
  | cons d t ih =>
    intro done row h hσ hb
    obtain ⟨h1, h2⟩ := hb [] d t rfl
    have hrefs : ∀ r ∈ d.2.refs, r ∈ columns := fun r hr => (h2 r hr).1
    have hval : d.2.value (columnValue columns row) = σ d.1 := by
      rw [hσ d List.mem_cons_self]
      refine method_value_congr _ fun r hr => h.2 r (hrefs r hr) ?_
      rcases (h2 r hr).2 with h | ⟨_, h, _⟩
      · exact h
      · cases h
    obtain ⟨row', h3, h4⟩ := ih (h.set h1) (fun x hx => hσ x (List.mem_cons_of_mem _ hx)) (by
      intro before x after e
      obtain ⟨h5, h6⟩ := hb (d :: before) x after (by rw [e]; rfl)
      refine ⟨h5, fun r hr => ⟨(h6 r hr).1, ?_⟩⟩
      rcases (h6 r hr).2 with h7 | ⟨y, hy, h7⟩
      · exact .inl (.inl h7)
      · rcases List.mem_cons.1 hy with rfl | hy
        · exact .inl (.inr h7.symm)
        · exact .inr ⟨y, hy, h7⟩)
    refine ⟨row', ?_, h4.mono ?_⟩
    · rw [List.foldlM_cons, computeColumn, columnIndex_ok h1, computeValue_ok h.1 _ hrefs, hval]
      simp only [bind, Except.bind]
      rw [if_pos (by rw [h.1]; exact List.idxOf_lt_length_iff.2 h1)]
      exact h3
    · rintro x (hx | ⟨y, hy, hx⟩)
      · exact .inl (.inl hx)
      · rcases List.mem_cons.1 hy with rfl | hy
        · exact .inl (.inr hx.symm)
        · exact .inr ⟨y, hy, hx⟩

theorem AgreesOn.eq_map {columns : List ℕ} (hn : columns.Nodup) {σ : ℕ → F} {done : ℕ → Prop} {row : List F}
    (h : AgreesOn columns σ done row) (hd : ∀ x ∈ columns, done x) : row = columns.map σ := by
  apply List.ext_getElem
  · simp [h.1]
  · intro i h1 h2
    have hi : i < columns.length := by simpa using h2
    have := h.2 columns[i] (List.getElem_mem hi) (hd _ (List.getElem_mem hi))
    rw [columnValue, hn.idxOf_getElem i hi] at this
    rw [List.getElem_map, ← this]
    simp [h1]

theorem columnValue_map {columns : List ℕ} {σ : ℕ → F} {id : ℕ} (h : id ∈ columns) :
    columnValue columns (columns.map σ) id = σ id := by
  have : columns.idxOf id < columns.length := List.idxOf_lt_length_iff.2 h
  simp [columnValue, this]

theorem evalInteraction_ok {columns : List ℕ} {σ : ℕ → F} (b : SymBus F ℕ)
    (h : ∀ e ∈ b.mult :: b.args, ∀ r ∈ e.refs, r ∈ columns) :
    evalInteraction columns (columns.map σ) b = .ok (b.message σ) := by
  have key : ∀ e ∈ b.mult :: b.args, evalRow columns (columns.map σ) e = .ok (e.value σ) := by
    intro e he
    rw [evalRow_ok (by simp) e (h e he), value_congr e fun r hr => columnValue_map (h e he r hr)]
  rw [evalInteraction, key _ List.mem_cons_self, mapM_of_forall (AlgExpr.value σ) fun e he =>
    key e (List.mem_cons_of_mem _ he)]
  rfl

theorem zeros_agree {columns : List ℕ} {σ : ℕ → F} :
    AgreesOn columns σ (fun _ => False) (List.replicate columns.length 0) :=
  ⟨by simp, fun _ _ h => h.elim⟩

theorem clog_ge (n : ℕ) : n ≤ nextPowerOfTwoOrZero n := by
  unfold nextPowerOfTwoOrZero
  split
  · omega
  · exact Nat.le_pow_clog (by norm_num) n

end

section
variable {A R F S : Type} [LinearOrder A]

/-- The kept instructions with their records. -/
def keptTriples (airs : List A) (subs : List (List (ℕ × ℕ))) (rs : List R) : List ((A × List (ℕ × ℕ)) × R) :=
  ((airs.zip subs).zip rs).filter fun x => decide (x.1.2 ≠ [])

theorem keptTriples_fst (airs : List A) (subs : List (List (ℕ × ℕ))) (rs : List R)
    (h1 : airs.length = subs.length) (h2 : airs.length = rs.length) :
    (keptTriples airs subs rs).map Prod.fst = keptInstrs airs subs := by
  unfold keptTriples keptInstrs
  have h : (airs.zip subs).length = rs.length := by simp [← h1, h2]
  clear h1 h2
  revert h
  generalize airs.zip subs = l
  intro h
  induction l generalizing rs with
  | nil => simp
  | cons x t ih =>
    cases rs with
    | nil => cases h
    | cons r rs =>
      have := ih rs (by simpa using h)
      obtain ⟨b, s⟩ := x
      rw [List.zip_cons_cons, List.filter_cons, List.filter_cons]
      cases s with
      | nil => simpa using this
      | cons z s => simpa using this

theorem keptRecords_triples (airs : List A) (subs : List (List (ℕ × ℕ))) (rs : List R) :
    keptRecords airs subs rs = (keptTriples airs subs rs).map fun x => (x.1.1, x.2) := rfl

/-- The result of `generate_trace`. -/
def traceDataOf (tr : A → DummyTrace F) (calls : ℕ) (airs : List A) (subs : List (List (ℕ × ℕ)))
    (m : SymMachine F ℕ) : TraceData F where
  dummyValues := (List.range calls).map fun i =>
    ((keptAirs airs subs).zip (tableOffsets (keptAirs airs subs) fun _ => 0)).map fun x =>
      ⟨(tr x.1).values, (i * (keptAirs airs subs).count x.1 + x.2) * (tr x.1).width, (tr x.1).width⟩
  indices := (keptInstrs airs subs).map fun x => x.2.map fun y => (y.1, m.mainColumns.idxOf y.2)
  columns := m.mainColumns
  compute := m.derived

theorem generateTrace_eq {traces : List (A × DummyTrace F)} (tr : A → DummyTrace F) {calls : ℕ} {airs : List A}
    {subs : List (List (ℕ × ℕ))} {m : SymMachine F ℕ} (h1 : airs.length = subs.length)
    (h2 : ∀ id, IsCopied subs id → id ∈ m.refs)
    (h3 : ∀ a ∈ keptAirs airs subs, traces.find? (fun y => y.1 = a) = some (a, tr a)) :
    generateTrace traces calls airs subs m = .ok (traceDataOf tr calls airs subs m) := by
  unfold generateTrace
  rw [if_neg (by simpa using h1)]
  have e1 : ((airs.zip subs).filter fun x => !x.2.isEmpty).mapM (fun x => indexPairs m.mainColumns x.2) =
      .ok ((keptInstrs airs subs).map fun x => x.2.map fun y => (y.1, m.mainColumns.idxOf y.2)) := by
    refine mapM_of_forall _ fun x hx => ?_
    refine indexPairs_ok fun y hy => mem_mainColumns.2 (h2 _ ⟨x.2, ?_, y.1, hy⟩)
    exact (List.of_mem_zip (List.mem_filter.1 hx).1).2
  have e2 : (List.range calls).mapM (fun row =>
      ((keptAirs airs subs).zip (tableOffsets (keptAirs airs subs) fun _ => 0)).mapM
        (rowReference traces (fun a => (keptAirs airs subs).count a) row)) =
      .ok (traceDataOf tr calls airs subs m).dummyValues := by
    refine mapM_of_forall _ fun i _ => ?_
    refine mapM_of_forall _ fun x hx => ?_
    rw [rowReference, h3 x.1 (List.of_mem_zip hx).1]
  simp only [bind, Except.bind]
  rw [e1]
  simp only
  unfold keptAirs at e2
  rw [e2]
  rfl

/-- The rows read. -/
theorem traceDataOf_slices {airs : List A} {subs : List (List (ℕ × ℕ))} (h1 : airs.length = subs.length)
    {log : List (CallLog S R)} (h2 : ∀ l ∈ log, airs.length = l.records.length)
    {gen : A → List R → DummyTrace F} {width : A → ℕ} {row : A → R → List F} (hg : WritesRows gen width row)
    (m : SymMachine F ℕ) :
    (traceDataOf (fun a => gen a (recordsOf true a (allEvents (tagsOf airs subs) log))) log.length airs subs
      m).dummyValues.map (fun refs => refs.map RowReference.slice) =
      log.map fun l => (keptRecords airs subs l.records).map fun x => .ok (row x.1 x.2) := by
  apply List.ext_getElem?
  intro i
  simp only [traceDataOf, List.map_map, List.getElem?_map]
  by_cases hi : i < log.length
  · rw [List.getElem?_range hi, List.getElem?_eq_getElem hi]
    simp only [Option.map_some, Option.some.injEq, Function.comp_apply]
    have hl : log[i] ∈ log := List.getElem_mem hi
    apply List.ext_getElem?
    intro k
    have hka := keptRecords_airs airs subs log[i].records h1 (h2 _ hl)
    rw [List.getElem?_map, List.getElem?_map, List.getElem?_map]
    cases hk : (keptRecords airs subs log[i].records)[k]? with
    | none =>
      have : (keptAirs airs subs)[k]? = none := by
        rw [← hka, List.getElem?_map, hk]
        rfl
      have : ((keptAirs airs subs).zip (tableOffsets (keptAirs airs subs) fun _ => 0))[k]? = none := by
        rw [List.getElem?_eq_none_iff] at this ⊢
        rw [List.length_zip, tableOffsets_length, Nat.min_self]
        exact this
      rw [this]
      rfl
    | some x =>
      obtain ⟨a, r⟩ := x
      obtain ⟨h3, -, -, h4⟩ := row_read h1 h2 hg (List.getElem?_eq_getElem hi) hk
      have h5 : (keptAirs airs subs)[k]? = some a := by
        rw [← hka, List.getElem?_map, hk]
        rfl
      have : ((keptAirs airs subs).zip (tableOffsets (keptAirs airs subs) fun _ => 0))[k]? =
          some (a, ((keptAirs airs subs).take k).count a) := by
        rw [List.getElem?_zip_eq_some]
        exact ⟨h5, h3⟩
      rw [this]
      simp only [Option.map_some]
      rw [h4]
  · rw [List.getElem?_eq_none (by simpa using hi), List.getElem?_eq_none (by simpa using hi)]
    rfl

/-- The triples of a call come from the lists. -/
theorem keptTriples_get {airs : List A} {subs : List (List (ℕ × ℕ))} {rs : List R} {k : ℕ} {a : A}
    {s : List (ℕ × ℕ)} {r : R} (h : (keptTriples airs subs rs)[k]? = some ((a, s), r)) :
    ∃ j : ℕ, airs[j]? = some a ∧ subs[j]? = some s ∧ rs[j]? = some r := by
  have hm := (List.mem_filter.1 (List.mem_of_getElem? h)).1
  obtain ⟨j, hj⟩ := List.mem_iff_getElem?.1 hm
  rw [List.getElem?_zip_eq_some] at hj
  obtain ⟨hj, hr⟩ := hj
  rw [List.getElem?_zip_eq_some] at hj
  exact ⟨j, hj.1, hj.2, hr⟩

variable [Field F] [DecidableEq F]

theorem witnessRow_ok {airs : List A} {subs : List (List (ℕ × ℕ))} (h1 : airs.length = subs.length)
    {rs : List R} (h2 : airs.length = rs.length) {row : A → R → List F} {m : SymMachine F ℕ} {d : TraceData F}
    (hcols : d.columns = m.mainColumns) (hcomp : d.compute = m.derived)
    (hind : d.indices = (keptInstrs airs subs).map fun x => x.2.map fun y => (y.1, m.mainColumns.idxOf y.2))
    {refs : List (RowReference F)}
    (hrefs : refs.map RowReference.slice = (keptRecords airs subs rs).map fun x => .ok (row x.1 x.2))
    (hf : Fillable m subs) {σ : ℕ → F} (hσ : Explains m airs subs row rs σ) :
    witnessRow d m.bus refs (List.replicate d.columns.length 0) =
      .ok (m.mainColumns.map σ, m.messages σ) := by
  have hlen : refs.length = (keptTriples airs subs rs).length := by
    have := congrArg List.length hrefs
    simpa [keptRecords_triples] using this
  have hki := keptTriples_fst airs subs rs h1 h2
  have hlen2 : (keptInstrs airs subs).length = (keptTriples airs subs rs).length := by
    rw [← hki, List.length_map]
  unfold witnessRow
  rw [if_neg (by rw [hind]; simp [hlen, hlen2])]
  have hl : refs.zip d.indices = (refs.zip ((keptInstrs airs subs).map Prod.snd)).map
      fun x => (x.1, x.2.map fun y => (y.1, m.mainColumns.idxOf y.2)) := by
    rw [hind, show ((keptInstrs airs subs).map fun x => x.2.map fun y => (y.1, m.mainColumns.idxOf y.2)) =
      ((keptInstrs airs subs).map Prod.snd).map fun s => s.map fun y => (y.1, m.mainColumns.idxOf y.2) by
        rw [List.map_map]; rfl, List.zip_map_right]
    rfl
  have hcell : ∀ x ∈ refs.zip ((keptInstrs airs subs).map Prod.snd), ∃ dummy, x.1.slice = .ok dummy ∧
      ∀ y ∈ x.2, y.2 ∈ m.mainColumns ∧ dummy[y.1]? = some (σ y.2) := by
    intro x hx
    obtain ⟨k, hk⟩ := List.mem_iff_getElem?.1 hx
    rw [List.getElem?_zip_eq_some] at hk
    obtain ⟨hk1, hk2⟩ := hk
    have hkl : k < (keptTriples airs subs rs).length := by
      rw [← hlen]
      exact (List.getElem?_eq_some_iff.1 hk1).1
    obtain ⟨⟨⟨a, s⟩, r⟩, ht⟩ : ∃ y, (keptTriples airs subs rs)[k]? = some y :=
      ⟨_, List.getElem?_eq_getElem hkl⟩
    rw [← hki, List.map_map, List.getElem?_map, ht] at hk2
    have hs : s = x.2 := by simpa using hk2
    have h3 : (refs.map RowReference.slice)[k]? = some (.ok (row a r)) := by
      rw [hrefs, keptRecords_triples, List.map_map, List.getElem?_map, ht]
      rfl
    rw [List.getElem?_map, hk1] at h3
    obtain ⟨j, hj1, hj2, hj3⟩ := keptTriples_get ht
    refine ⟨row a r, by simpa using h3, fun y hy => ⟨?_, ?_⟩⟩
    · refine mem_mainColumns.2 (hf.copied _ ⟨s, List.mem_of_getElem? hj2, y.1, ?_⟩)
      rw [hs]
      exact hy
    · exact hσ.copied j a s r hj1 hj2 hj3 y.1 y.2 (by rw [hs]; exact hy)
  rw [hcols]
  obtain ⟨row1, e1, a1⟩ := copyCells_fold _ hcell zeros_agree
  have hdone : ∀ id, IsCopied subs id → ∃ y ∈ refs.zip ((keptInstrs airs subs).map Prod.snd), ∃ c, (c, id) ∈ y.2 := by
    rintro id ⟨s, hs, c, hc⟩
    obtain ⟨j, hj⟩ := List.mem_iff_getElem?.1 hs
    have hja : j < airs.length := by
      rw [h1]
      exact (List.getElem?_eq_some_iff.1 hj).1
    have hmem : (airs[j], s) ∈ keptInstrs airs subs := by
      refine List.mem_filter.2 ⟨?_, ?_⟩
      · refine List.mem_of_getElem? (i := j) ?_
        rw [List.getElem?_zip_eq_some]
        exact ⟨List.getElem?_eq_getElem hja, hj⟩
      · cases s with
        | nil => cases hc
        | cons _ _ => rfl
    obtain ⟨k, hk⟩ := List.mem_iff_getElem?.1 hmem
    have hkl : k < refs.length := by
      rw [hlen, ← hlen2]
      exact (List.getElem?_eq_some_iff.1 hk).1
    refine ⟨(refs[k], s), ?_, c, hc⟩
    refine List.mem_of_getElem? (i := k) ?_
    rw [List.getElem?_zip_eq_some]
    refine ⟨List.getElem?_eq_getElem hkl, ?_⟩
    rw [List.getElem?_map, hk]
    rfl
  have a2 := a1.mono (done' := fun x => IsCopied subs x) fun x hx => .inr (hdone x hx)
  obtain ⟨row2, e2, a3⟩ := computeColumn_fold m.derived a2 hσ.computed (by
    intro before x after e
    obtain ⟨h3, h4⟩ := hf.computed before x after e
    exact ⟨mem_mainColumns.2 h3, fun r hr => ⟨mem_mainColumns.2 (h4 r hr).1, (h4 r hr).2⟩⟩)
  have hrow : row2 = m.mainColumns.map σ :=
    a3.eq_map (mainColumns_nodup m) fun x hx => hf.covered x (mem_mainColumns.1 hx)
  have hbus : m.bus.mapM (evalInteraction m.mainColumns (m.mainColumns.map σ)) =
      .ok (m.bus.map (SymBus.message σ)) := by
    refine mapM_of_forall _ fun b hb => evalInteraction_ok b fun e he r hr => mem_mainColumns.2 ?_
    rw [SymMachine.refs, List.mem_flatMap]
    refine ⟨e, ?_, hr⟩
    rw [SymMachine.exprs, List.mem_append, List.mem_flatMap]
    exact .inr ⟨b, hb, he⟩
  rw [hl, e1]
  simp only [bind, Except.bind]
  rw [hcomp, e2]
  simp only
  rw [hrow, hbus]
  rfl

end

end Verif
