import Verif.Spec.Symbols

/-!
# Locations, and the statements of a program
-/

set_option linter.unusedSectionVars false
set_option linter.unusedSimpArgs false

namespace Verif

/-! ## Locations in segments -/

/-- Ordered by address. -/
abbrev LocsSorted (l : List SrcLoc) : Prop := l.Pairwise fun x y => x.address ≤ y.address

theorem split_at_addr {l : List SrcLoc} {i addr : ℕ} (h1 : ∀ x ∈ l.take i, x.address < addr)
    (h2 : ∀ x ∈ l.drop i, addr ≤ x.address) :
    l.take i = l.filter (fun x => decide (x.address < addr)) ∧ l.drop i = l.filter fun x => decide (addr ≤ x.address) := by
  have e := List.take_append_drop i l
  constructor
  · conv_rhs => rw [← e]
    rw [List.filter_append, List.filter_eq_self.2 (fun x hx => by simpa using h1 x hx),
      List.filter_eq_nil_iff.2 (fun x hx => by have := h2 x hx; simp only [decide_eq_true_eq]; omega), List.append_nil]
  · conv_rhs => rw [← e]
    rw [List.filter_append, List.filter_eq_nil_iff.2 (fun x hx => by have := h1 x hx; simp only [decide_eq_true_eq]; omega), List.nil_append,
      List.filter_eq_self.2 (fun x hx => by simpa using h2 x hx)]

theorem firstIdxFrom_spec {l : List SrcLoc} (hs : LocsSorted l) (addr : ℕ) : ∀ i, i ≤ l.length → (∀ x ∈ l.drop i, addr ≤ x.address) →
    (∀ x ∈ l.take i, x.address ≤ addr) →
    (∀ x ∈ l.take (firstIdxFrom l addr i), x.address < addr) ∧ ∀ x ∈ l.drop (firstIdxFrom l addr i), addr ≤ x.address := by
  intro i
  induction i with
  | zero => intro _ h1 _; simpa [firstIdxFrom] using h1
  | succ i ih =>
    intro hi h1 h2
    rw [firstIdxFrom]
    split_ifs with h
    · obtain ⟨y, hy, hya⟩ := (Option.any_eq_true _ _).1 h
      simp only [decide_eq_true_eq] at hya
      obtain ⟨hlt, hget⟩ := List.getElem?_eq_some_iff.1 hy
      refine ih (by omega) ?_ (fun x hx => h2 x ?_)
      · rw [List.drop_eq_getElem_cons hlt, hget]
        intro x hx
        rcases List.mem_cons.1 hx with rfl | hx
        · exact le_of_eq hya.symm
        · exact h1 x hx
      · exact (List.take_subset_take_left l (Nat.le_succ i)) hx
    · refine ⟨fun x hx => ?_, h1⟩
      have hlt : i < l.length := hi
      have hne : l[i].address ≠ addr := by
        intro hh
        apply h
        rw [List.getElem?_eq_getElem hlt]
        simpa using hh
      have hle : l[i].address ≤ addr := h2 _ (List.mem_take_iff_getElem.2 ⟨i, by omega, rfl⟩)
      obtain ⟨j, hj, rfl⟩ := List.mem_take_iff_getElem.1 hx
      rcases Nat.lt_or_ge j i with hji | hji
      · have := List.pairwise_iff_getElem.1 hs j i (by omega) hlt hji
        omega
      · obtain rfl : j = i := by omega
        omega

theorem findFirstIdx_spec {search : LocSearch} (hc : search.Correct) {l : List SrcLoc} (hs : LocsSorted l) (addr : ℕ) :
    l.take (findFirstIdx search l addr) = l.filter (fun x => decide (x.address < addr)) ∧
      l.drop (findFirstIdx search l addr) = l.filter fun x => decide (addr ≤ x.address) := by
  have h := hc l addr hs
  rw [findFirstIdx]
  cases hr : search l addr with
  | inl i =>
    rw [hr] at h
    obtain ⟨x, hx, hxa⟩ := h
    obtain ⟨hlt, hget⟩ := List.getElem?_eq_some_iff.1 hx
    have := firstIdxFrom_spec hs addr i (by omega) (fun y hy => ?_) (fun y hy => ?_)
    · exact split_at_addr this.1 this.2
    · obtain ⟨j, hj, rfl⟩ := List.mem_drop_iff_getElem.1 hy
      rcases Nat.eq_zero_or_pos j with rfl | hj0
      · simp only [Nat.add_zero, hget, hxa, le_refl]
      · have := List.pairwise_iff_getElem.1 hs i (i + j) hlt (by omega) (by omega)
        rw [hget, hxa] at this
        exact this
    · obtain ⟨j, hj, rfl⟩ := List.mem_take_iff_getElem.1 hy
      have := List.pairwise_iff_getElem.1 hs j i (by omega) hlt (by omega)
      rw [hget, hxa] at this
      exact this
  | inr i =>
    rw [hr] at h
    exact split_at_addr h.2.1 fun x hx => le_of_lt (h.2.2 x hx)

/-- The locations that are kept. -/
def KeptLoc (segments : List (ℕ × ℕ)) (x : SrcLoc) : Prop :=
  (∃ s ∈ segments, s.1 ≤ x.address ∧ x.address < s.1 + s.2) ∨ ∀ s ∈ segments, s.1 + s.2 ≤ x.address

instance (segments : List (ℕ × ℕ)) (x : SrcLoc) : Decidable (KeptLoc segments x) := by unfold KeptLoc; infer_instance

theorem sorted_split {l : List SrcLoc} (hs : LocsSorted l) (e : ℕ) :
    l = l.filter (fun x => decide (x.address < e)) ++ l.filter fun x => decide (e ≤ x.address) := by
  induction l with
  | nil => rfl
  | cons a t ih =>
    obtain ⟨h1, h2⟩ := List.pairwise_cons.1 hs
    by_cases h : a.address < e
    · rw [List.filter_cons_of_pos (by simpa using h), List.filter_cons_of_neg (by simp; omega), List.cons_append, ← ih h2]
    · rw [List.filter_cons_of_neg (by simpa using h), List.filter_eq_nil_iff.2, List.nil_append, List.filter_eq_self.2]
      · intro x hx
        rcases List.mem_cons.1 hx with rfl | hx
        · simpa using h
        · have := h1 x hx
          simp only [decide_eq_true_eq]
          omega
      · intro x hx
        have := h1 x hx
        simp only [decide_eq_true_eq]
        omega

theorem filterSegments_spec {search : LocSearch} (hc : search.Correct) : ∀ (segments : List (ℕ × ℕ)), SegmentsApart segments →
    ∀ (done rest : List SrcLoc), LocsSorted rest →
    (segments.foldl (filterSegment search) (done, rest)).1 ++ (segments.foldl (filterSegment search) (done, rest)).2 =
      done ++ rest.filter fun x => decide (KeptLoc segments x) := by
  intro segments
  induction segments with
  | nil =>
    intro _ done rest _
    rw [List.filter_eq_self.2]
    · rfl
    · intro x _
      simp [KeptLoc]
  | cons s segs ih =>
    intro ha done rest hs
    obtain ⟨ha1, ha2⟩ := ha
    obtain ⟨hs1, hs2⟩ := List.pairwise_cons.1 ha1
    have hov : (s.1 + s.2) % 2 ^ 32 = s.1 + s.2 := Nat.mod_eq_of_lt (ha2 s (by simp))
    have e1 := (findFirstIdx_spec hc hs s.1).2
    have hs' : LocsSorted (rest.filter fun x => decide (s.1 ≤ x.address)) := hs.filter _
    have e2 := findFirstIdx_spec hc hs' (s.1 + s.2)
    have hstep : filterSegment search (done, rest) s =
        (done ++ (rest.filter fun x => decide (s.1 ≤ x.address)).filter (fun x => decide (x.address < s.1 + s.2)),
          (rest.filter fun x => decide (s.1 ≤ x.address)).filter fun x => decide (s.1 + s.2 ≤ x.address)) := by
      simp only [filterSegment, hov, e1, e2.1, e2.2]
    rw [List.foldl_cons, hstep, ih ⟨hs2, fun t ht => ha2 t (List.mem_cons_of_mem _ ht)⟩ _ _ (hs'.filter _), List.append_assoc]
    congr 1
    conv_rhs => rw [sorted_split hs (s.1 + s.2), List.filter_append]
    simp only [List.filter_filter]
    congr 1
    · refine List.filter_congr fun x _ => ?_
      rw [Bool.eq_iff_iff]
      simp only [Bool.and_eq_true, decide_eq_true_eq]
      constructor
      · rintro ⟨h1, h2⟩
        exact ⟨.inl ⟨s, by simp, h2, h1⟩, h1⟩
      · rintro ⟨h | h, h1⟩
        · obtain ⟨t, ht, h2, h3⟩ := h
          rcases List.mem_cons.1 ht with rfl | ht
          · exact ⟨h1, h2⟩
          · have := hs1 t ht
            omega
        · have := h s (by simp)
          omega
    · refine List.filter_congr fun x _ => ?_
      rw [Bool.eq_iff_iff]
      simp only [Bool.and_eq_true, decide_eq_true_eq]
      constructor
      · rintro ⟨h, h1, h2⟩
        refine ⟨?_, h1⟩
        rcases h with ⟨t, ht, h⟩ | h
        · exact .inl ⟨t, List.mem_cons_of_mem _ ht, h⟩
        · exact .inr fun t ht => by
            rcases List.mem_cons.1 ht with rfl | ht
            · exact h1
            · exact h t ht
      · rintro ⟨h, h1⟩
        refine ⟨?_, h1, by omega⟩
        rcases h with ⟨t, ht, h2, h3⟩ | h
        · rcases List.mem_cons.1 ht with rfl | ht
          · omega
          · exact .inl ⟨t, ht, h2, h3⟩
        · exact .inr fun t ht => h t (List.mem_cons_of_mem _ ht)

theorem filterLocations_eq {search : LocSearch} (hc : search.Correct) {segments : List (ℕ × ℕ)} (hseg : SegmentsApart segments)
    {l : List SrcLoc} (hs : LocsSorted l) :
    filterLocations search segments l = l.filter fun x => decide (KeptLoc segments x) := by
  have := filterSegments_spec hc segments hseg [] l hs
  simpa [filterLocations] using this

/-! ## The inner merge -/

variable {I : Type}

theorem mergeJoinBy_nil_left {A B : Type} (cmp : A → B → Except Panic Bool) (bs : List B) :
    mergeJoinBy cmp [] bs = .ok (bs.map .inr) := by
  rw [mergeJoinBy]

theorem mergeJoinBy_nil_right {A B : Type} (cmp : A → B → Except Panic Bool) (as : List A) :
    mergeJoinBy cmp as [] = .ok (as.map .inl) := by
  cases as <;> simp [mergeJoinBy]

theorem mergeJoinBy_cons {A B : Type} (cmp : A → B → Except Panic Bool) (a : A) (as : List A) (b : B) (bs : List B) :
    mergeJoinBy cmp (a :: as) (b :: bs) = (cmp a b).bind fun c =>
      if c then (mergeJoinBy cmp as (b :: bs)).map (.inl a :: ·) else (mergeJoinBy cmp (a :: as) bs).map (.inr b :: ·) := by
  rw [mergeJoinBy]
  cases cmp a b with
  | error e => rfl
  | ok c =>
    cases c
    · simp only [bind, Except.bind, Bool.false_eq_true, if_false]
      cases mergeJoinBy cmp (a :: as) bs <;> rfl
    · simp only [bind, Except.bind, if_true]
      cases mergeJoinBy cmp as (b :: bs) <;> rfl

theorem inner_step {locs : List SrcLoc} (hs : LocsSorted locs) {i : PlacedIns I} (is : List (PlacedIns I))
    (h : ∀ x ∈ locs, i.address ≤ x.address) :
    mergeJoinBy locFirst locs (i :: is) =
      (mergeJoinBy locFirst (locs.filter fun x => decide (i.address + i.size ≤ x.address)) is).map fun r =>
        (locs.filter fun x => decide (i.address ≤ x.address ∧ x.address < i.address + i.size)).map .inl ++ .inr i :: r := by
  induction locs with
  | nil => simp [mergeJoinBy_nil_left, Except.map]
  | cons a t ih =>
    obtain ⟨h1, h2⟩ := List.pairwise_cons.1 hs
    have ha := h a (by simp)
    rw [mergeJoinBy_cons, locFirst, if_neg (by omega)]
    simp only [Except.bind]
    by_cases hlt : a.address < i.address + i.size
    · rw [if_pos (by simpa using hlt), ih h2 fun x hx => h x (List.mem_cons_of_mem _ hx),
        List.filter_cons_of_neg (p := fun x : SrcLoc => decide (i.address + i.size ≤ x.address)) (by
          rw [decide_eq_true_eq]
          omega), List.filter_cons_of_pos (by simp [ha, hlt])]
      cases mergeJoinBy locFirst _ is <;> rfl
    · rw [if_neg (by simpa using hlt)]
      have e1 : (a :: t).filter (fun x => decide (i.address + i.size ≤ x.address)) = a :: t := by
        refine List.filter_eq_self.2 fun x hx => ?_
        simp only [decide_eq_true_eq]
        rcases List.mem_cons.1 hx with rfl | hx
        · omega
        · have := h1 x hx
          omega
      have e2 : (a :: t).filter (fun x => decide (i.address ≤ x.address ∧ x.address < i.address + i.size)) = [] := by
        refine List.filter_eq_nil_iff.2 fun x hx => ?_
        simp only [decide_eq_true_eq]
        rcases List.mem_cons.1 hx with rfl | hx
        · omega
        · have := h1 x hx
          omega
      rw [e1, e2]
      rfl

theorem inner_error {a : SrcLoc} {t : List SrcLoc} {i : PlacedIns I} (is : List (PlacedIns I)) (h : a.address < i.address) :
    mergeJoinBy locFirst (a :: t) (i :: is) = .error .assertion := by
  rw [mergeJoinBy_cons, locFirst, if_pos h]
  rfl

/-- Every location is in an instruction, or after all of them. -/
def LocsPlaced (locs : List SrcLoc) (is : List (PlacedIns I)) : Prop :=
  ∀ x ∈ locs, (∃ i ∈ is, i.address ≤ x.address ∧ x.address < i.address + i.size) ∨ ∀ i ∈ is, i.address + i.size ≤ x.address

/-- The locations and the instructions, merged. -/
def innerOf (locs : List SrcLoc) (is : List (PlacedIns I)) : List (SrcLoc ⊕ PlacedIns I) :=
  (is.flatMap fun i =>
    ((locs.filter fun x => decide (i.address ≤ x.address ∧ x.address < i.address + i.size)).map .inl) ++ [.inr i]) ++
  (locs.filter fun x => decide (∀ i ∈ is, i.address + i.size ≤ x.address)).map .inl

theorem insApart_tail {i : PlacedIns I} {is : List (PlacedIns I)} (h : InsApart (i :: is)) :
    InsApart is ∧ (∀ j ∈ is, i.address + i.size ≤ j.address) ∧ 0 < i.size :=
  ⟨⟨(List.pairwise_cons.1 h.1).2, fun j hj => h.2 j (List.mem_cons_of_mem _ hj)⟩, (List.pairwise_cons.1 h.1).1, h.2 i (by simp)⟩

theorem innerOf_cons {locs : List SrcLoc} {i : PlacedIns I} {is : List (PlacedIns I)} (h : InsApart (i :: is)) :
    innerOf locs (i :: is) =
      (locs.filter fun x => decide (i.address ≤ x.address ∧ x.address < i.address + i.size)).map .inl ++
        .inr i :: innerOf (locs.filter fun x => decide (i.address + i.size ≤ x.address)) is := by
  obtain ⟨_, h2, h3⟩ := insApart_tail h
  simp only [innerOf, List.flatMap_cons, List.append_assoc, List.cons_append, List.nil_append]
  congr 2
  congr 1
  · refine List.flatMap_congr fun j hj => ?_
    have := h2 j hj
    rw [List.filter_filter]
    congr 2
    refine List.filter_congr fun x _ => ?_
    rw [Bool.eq_iff_iff]
    simp only [Bool.and_eq_true, decide_eq_true_eq]
    omega
  · rw [List.filter_filter]
    congr 1
    refine List.filter_congr fun x _ => ?_
    rw [Bool.eq_iff_iff]
    simp only [Bool.and_eq_true, decide_eq_true_eq, List.forall_mem_cons]
    exact and_comm

theorem inner_ok : ∀ (is : List (PlacedIns I)) (locs : List SrcLoc), InsApart is → LocsSorted locs → LocsPlaced locs is →
    mergeJoinBy locFirst locs is = .ok (innerOf locs is) := by
  intro is
  induction is with
  | nil =>
    intro locs _ _ _
    rw [mergeJoinBy_nil_right, innerOf, List.flatMap_nil, List.nil_append, List.filter_eq_self.2]
    simp
  | cons i is ih =>
    intro locs ha hs hp
    obtain ⟨h1, h2, h3⟩ := insApart_tail ha
    rw [inner_step hs is, ih _ h1 (hs.filter _), innerOf_cons ha]
    · rfl
    · intro x hx
      obtain ⟨hx, hge⟩ := List.mem_filter.1 hx
      simp only [decide_eq_true_eq] at hge
      rcases hp x hx with ⟨j, hj, h⟩ | h
      · rcases List.mem_cons.1 hj with rfl | hj
        · omega
        · exact .inl ⟨j, hj, h⟩
      · exact .inr fun j hj => h j (List.mem_cons_of_mem _ hj)
    · intro x hx
      rcases hp x hx with ⟨j, hj, h⟩ | h
      · rcases List.mem_cons.1 hj with rfl | hj
        · exact h.1
        · have := h2 j hj
          omega
      · have := h i (by simp)
        omega

theorem inner_placed : ∀ (is : List (PlacedIns I)) (locs : List SrcLoc), InsApart is → LocsSorted locs →
    (∃ r, mergeJoinBy locFirst locs is = .ok r) → LocsPlaced locs is := by
  intro is
  induction is with
  | nil => intro locs _ _ _ x _; exact .inr (by simp)
  | cons i is ih =>
    intro locs ha hs hr
    obtain ⟨h1, h2, h3⟩ := insApart_tail ha
    have hge : ∀ x ∈ locs, i.address ≤ x.address := by
      cases locs with
      | nil => simp
      | cons a t =>
        have ha : i.address ≤ a.address := by
          by_contra hlt
          rw [inner_error is (by omega)] at hr
          obtain ⟨r, hr⟩ := hr
          exact absurd hr (by simp)
        intro x hx
        rcases List.mem_cons.1 hx with rfl | hx
        · exact ha
        · exact ha.trans ((List.pairwise_cons.1 hs).1 x hx)
    rw [inner_step hs is hge] at hr
    have hp := ih (locs.filter fun x => decide (i.address + i.size ≤ x.address)) h1 (hs.filter _) (by
      obtain ⟨r, hr⟩ := hr
      cases h : mergeJoinBy locFirst (locs.filter fun x => decide (i.address + i.size ≤ x.address)) is with
      | ok r => exact ⟨r, rfl⟩
      | error e => rw [h] at hr; exact absurd hr (by simp [Except.map]))
    intro x hx
    by_cases hlt : x.address < i.address + i.size
    · exact .inl ⟨i, by simp, hge x hx, hlt⟩
    · rcases hp x (List.mem_filter.2 ⟨hx, by simpa using hlt⟩) with ⟨j, hj, h⟩ | h
      · exact .inl ⟨j, List.mem_cons_of_mem _ hj, h⟩
      · refine .inr fun j hj => ?_
        rcases List.mem_cons.1 hj with rfl | hj
        · omega
        · exact h j hj

/-! ## The outer merge -/

theorem withCells_block (A : List SrcLoc) (i : PlacedIns I) (r : List (SrcLoc ⊕ PlacedIns I)) :
    withCells (A.map .inl ++ .inr i :: r) =
      (A.map (fun x => (i.address, Sum.inl x)) ++ [(i.address, Sum.inr i)]) ++ withCells r := by
  have hc : ∀ A : List SrcLoc, cellOf (A.map .inl ++ .inr i :: r) = i.address := by
    intro A
    induction A with
    | nil => rfl
    | cons a t ih => exact ih
  induction A with
  | nil => rfl
  | cons a t ih =>
    simp only [List.map_cons, List.cons_append, withCells]
    rw [ih]
    have : cellOf ((Sum.inl a : SrcLoc ⊕ PlacedIns I) :: (t.map .inl ++ .inr i :: r)) = i.address := hc (a :: t)
    rw [this]

theorem withCells_locs (A : List SrcLoc) :
    withCells (A.map .inl : List (SrcLoc ⊕ PlacedIns I)) = A.map fun x => (0, Sum.inl x) := by
  have hc : ∀ A : List SrcLoc, cellOf (A.map .inl : List (SrcLoc ⊕ PlacedIns I)) = 0 := by
    intro A
    induction A with
    | nil => rfl
    | cons a t ih => exact ih
  induction A with
  | nil => rfl
  | cons a t ih =>
    simp only [List.map_cons, withCells]
    rw [ih]
    exact congrArg₂ _ (congrArg₂ _ (hc (a :: t)) rfl) rfl

theorem outer_right {X : Type} {a : ℕ} (labels : List ℕ) (h : ∀ x ∈ labels, a < x) (es : List (ℕ × X)) (he : ∀ e ∈ es, e.1 = a)
    (rest : List (ℕ × X)) :
    mergeJoinBy labelFirst labels (es ++ rest) = (mergeJoinBy labelFirst labels rest).map fun r => es.map .inr ++ r := by
  induction es with
  | nil => cases h : mergeJoinBy labelFirst labels rest <;> simp [h, Except.map]
  | cons e es ih =>
    have ih := ih fun x hx => he x (List.mem_cons_of_mem _ hx)
    cases labels with
    | nil => simp [mergeJoinBy_nil_left, Except.map]
    | cons b bs =>
      have hb := h b (by simp)
      have hea := he e (by simp)
      rw [List.cons_append, mergeJoinBy_cons, labelFirst, if_neg (by omega)]
      simp only [Except.bind]
      rw [if_neg (by simp; omega), ih]
      cases mergeJoinBy labelFirst (b :: bs) rest <;> rfl

theorem outer_step {X : Type} {a : ℕ} {labels : List ℕ} (hs : labels.Pairwise (· < ·)) (h : ∀ x ∈ labels, a ≤ x)
    {es : List (ℕ × X)} (hne : es ≠ []) (he : ∀ e ∈ es, e.1 = a) (rest : List (ℕ × X)) :
    mergeJoinBy labelFirst labels (es ++ rest) =
      (mergeJoinBy labelFirst (labels.filter fun x => decide (a < x)) rest).map fun r =>
        (if a ∈ labels then [.inl a] else []) ++ es.map .inr ++ r := by
  cases labels with
  | nil =>
    rw [outer_right [] (by simp) es he]
    simp
  | cons b bs =>
    obtain ⟨h1, h2⟩ := List.pairwise_cons.1 hs
    by_cases hb : b = a
    · subst hb
      rw [if_pos (by simp), List.filter_cons_of_neg (by simp), List.filter_eq_self.2 fun x hx => by simpa using h1 x hx]
      cases es with
      | nil => exact absurd rfl hne
      | cons e es =>
        have hea := he e (by simp)
        rw [List.cons_append, mergeJoinBy_cons, labelFirst, if_neg (by omega)]
        simp only [Except.bind]
        rw [if_pos (by simp [hea]), ← List.cons_append, outer_right bs h1 (e :: es) he]
        cases mergeJoinBy labelFirst bs rest <;> rfl
    · have hba := h b (by simp)
      have hlt : ∀ x ∈ b :: bs, a < x := by
        intro x hx
        rcases List.mem_cons.1 hx with rfl | hx
        · omega
        · have := h1 x hx
          omega
      rw [if_neg (fun hm => lt_irrefl a (hlt a hm)), List.filter_eq_self.2 fun x hx => by simpa using hlt x hx,
        outer_right _ hlt es he]
      simp

theorem outer_error {X : Type} {b : ℕ} {bs : List ℕ} {e : ℕ × X} (es : List (ℕ × X)) (h : b < e.1) :
    mergeJoinBy labelFirst (b :: bs) (e :: es) = .error .assertion := by
  rw [mergeJoinBy_cons, labelFirst, if_pos h]
  rfl

/-- Every label is the address of an instruction, or comes after all of them. -/
def LabelsPlaced (labels : List ℕ) (is : List (PlacedIns I)) : Prop :=
  ∀ x ∈ labels, (∃ i ∈ is, x = i.address) ∨ ∀ i ∈ is, i.address < x

/-- The labels, the locations and the instructions, merged. -/
def outerOf (labels : List ℕ) (locs : List SrcLoc) (is : List (PlacedIns I)) : List (ℕ ⊕ (ℕ × (SrcLoc ⊕ PlacedIns I))) :=
  (is.flatMap fun i =>
    (if i.address ∈ labels then [.inl i.address] else []) ++
      ((locs.filter fun x => decide (i.address ≤ x.address ∧ x.address < i.address + i.size)).map fun x =>
        .inr (i.address, .inl x)) ++ [.inr (i.address, .inr i)]) ++
  ((locs.filter fun x => decide (∀ i ∈ is, i.address + i.size ≤ x.address)).map fun x => .inr (0, .inl x)) ++
  (labels.filter fun x => decide (∀ i ∈ is, i.address < x)).map .inl

theorem outerOf_cons {labels : List ℕ} {locs : List SrcLoc} {i : PlacedIns I} {is : List (PlacedIns I)} (h : InsApart (i :: is)) :
    outerOf labels locs (i :: is) =
      (if i.address ∈ labels then [.inl i.address] else []) ++
        (((locs.filter fun x => decide (i.address ≤ x.address ∧ x.address < i.address + i.size)).map fun x =>
          Sum.inr (i.address, Sum.inl x)) ++ [Sum.inr (i.address, Sum.inr i)]) ++
        outerOf (labels.filter fun x => decide (i.address < x))
          (locs.filter fun x => decide (i.address + i.size ≤ x.address)) is := by
  obtain ⟨_, h2, h3⟩ := insApart_tail h
  simp only [outerOf, List.flatMap_cons, List.append_assoc, List.map_append, List.map_map, List.map_cons, List.map_nil,
    Function.comp_def]
  have hF : ∀ j ∈ is, (if j.address ∈ labels then [Sum.inl j.address] else []) ++
      ((locs.filter fun x => decide (j.address ≤ x.address ∧ x.address < j.address + j.size)).map (fun x =>
        Sum.inr (j.address, Sum.inl x)) ++ [Sum.inr (j.address, Sum.inr j)]) =
      ((if j.address ∈ labels.filter (fun x => decide (i.address < x)) then [Sum.inl j.address] else []) ++
      (((locs.filter fun x => decide (i.address + i.size ≤ x.address)).filter fun x =>
        decide (j.address ≤ x.address ∧ x.address < j.address + j.size)).map (fun x =>
        Sum.inr (j.address, Sum.inl x)) ++ [Sum.inr (j.address, Sum.inr j)]) : List (ℕ ⊕ (ℕ × (SrcLoc ⊕ PlacedIns I)))) := by
    intro j hj
    have := h2 j hj
    rw [List.filter_filter]
    have e : (j.address ∈ labels.filter fun x => decide (i.address < x)) ↔ j.address ∈ labels := by
      rw [List.mem_filter, decide_eq_true_eq]
      exact and_iff_left (by omega)
    simp only [e]
    congr 3
    refine List.filter_congr fun x _ => ?_
    rw [Bool.eq_iff_iff]
    simp only [Bool.and_eq_true, decide_eq_true_eq]
    omega
  have hT : (locs.filter fun x => decide (∀ j ∈ i :: is, j.address + j.size ≤ x.address)) =
      (locs.filter fun x => decide (i.address + i.size ≤ x.address)).filter fun x =>
        decide (∀ j ∈ is, j.address + j.size ≤ x.address) := by
    rw [List.filter_filter]
    refine List.filter_congr fun x _ => ?_
    rw [Bool.eq_iff_iff]
    simp only [Bool.and_eq_true, decide_eq_true_eq, List.forall_mem_cons]
    exact and_comm
  have hL : (labels.filter fun x => decide (∀ j ∈ i :: is, j.address < x)) =
      (labels.filter fun x => decide (i.address < x)).filter fun x => decide (∀ j ∈ is, j.address < x) := by
    rw [List.filter_filter]
    refine List.filter_congr fun x _ => ?_
    rw [Bool.eq_iff_iff]
    simp only [Bool.and_eq_true, decide_eq_true_eq, List.forall_mem_cons]
    exact and_comm
  rw [hT, hL, List.flatMap_congr hF]

theorem outer_ok : ∀ (is : List (PlacedIns I)) (labels : List ℕ) (locs : List SrcLoc), InsApart is →
    labels.Pairwise (· < ·) → LabelsPlaced labels is → (is = [] → ∀ x ∈ labels, 0 < x) →
    mergeJoinBy labelFirst labels (withCells (innerOf locs is)) = .ok (outerOf labels locs is) := by
  intro is
  induction is with
  | nil =>
    intro labels locs _ _ _ h0
    have e1 : (innerOf locs ([] : List (PlacedIns I))) = locs.map .inl := by
      rw [innerOf, List.flatMap_nil, List.nil_append, List.filter_eq_self.2]
      simp
    have := outer_right (X := SrcLoc ⊕ PlacedIns I) (a := 0) labels (h0 rfl) (locs.map fun x => (0, Sum.inl x))
      (by simp) []
    rw [e1, withCells_locs]
    rw [List.append_nil] at this
    rw [this, mergeJoinBy_nil_right, outerOf, List.flatMap_nil, List.nil_append, List.filter_eq_self.2 (by simp),
      List.filter_eq_self.2 (by simp), List.map_map]
    rfl
  | cons i is ih =>
    intro labels locs ha hs hp _
    obtain ⟨h1, h2, h3⟩ := insApart_tail ha
    have hge : ∀ x ∈ labels, i.address ≤ x := by
      intro x hx
      rcases hp x hx with ⟨j, hj, h⟩ | h
      · rcases List.mem_cons.1 hj with rfl | hj
        · omega
        · have := h2 j hj
          omega
      · have := h i (by simp)
        omega
    rw [innerOf_cons ha, withCells_block, outer_step hs hge (by simp) (by
      intro e he
      rcases List.mem_append.1 he with he | he
      · obtain ⟨x, _, rfl⟩ := List.mem_map.1 he
        rfl
      · rw [List.mem_singleton.1 he]), ih, outerOf_cons ha]
    · simp only [Except.map, List.map_append, List.map_map, List.map_cons, List.map_nil, Function.comp_def]
    · exact h1
    · exact hs.filter _
    · intro x hx
      obtain ⟨hx, hgt⟩ := List.mem_filter.1 hx
      simp only [decide_eq_true_eq] at hgt
      rcases hp x hx with ⟨j, hj, h⟩ | h
      · rcases List.mem_cons.1 hj with rfl | hj
        · omega
        · exact .inl ⟨j, hj, h⟩
      · exact .inr fun j hj => h j (List.mem_cons_of_mem _ hj)
    · intro _ x hx
      have := (List.mem_filter.1 hx).2
      simp only [decide_eq_true_eq] at this
      omega

theorem outer_placed : ∀ (is : List (PlacedIns I)) (labels : List ℕ) (locs : List SrcLoc), InsApart is →
    labels.Pairwise (· < ·) → (∃ r, mergeJoinBy labelFirst labels (withCells (innerOf locs is)) = .ok r) →
    LabelsPlaced labels is := by
  intro is
  induction is with
  | nil => intro labels locs _ _ _ x _; exact .inr (by simp)
  | cons i is ih =>
    intro labels locs ha hs hr
    obtain ⟨h1, h2, h3⟩ := insApart_tail ha
    rw [innerOf_cons ha, withCells_block] at hr
    generalize hes : (locs.filter fun x => decide (i.address ≤ x.address ∧ x.address < i.address + i.size)).map (fun x =>
          (i.address, Sum.inl x)) ++ [((i.address, Sum.inr i) : ℕ × (SrcLoc ⊕ PlacedIns I))] = es at hr
    have hne : es ≠ [] := by rw [← hes]; simp
    have hea : ∀ e ∈ es, e.1 = i.address := by
      rw [← hes]
      intro e he
      rcases List.mem_append.1 he with he | he
      · obtain ⟨x, _, rfl⟩ := List.mem_map.1 he
        rfl
      · rw [List.mem_singleton.1 he]
    have hge : ∀ x ∈ labels, i.address ≤ x := by
      cases labels with
      | nil => simp
      | cons b bs =>
        have hb : i.address ≤ b := by
          by_contra hlt
          cases es with
          | nil => exact hne rfl
          | cons e es =>
            rw [List.cons_append, outer_error _ (by rw [hea e (by simp)]; omega)] at hr
            obtain ⟨r, hr⟩ := hr
            exact absurd hr (by simp)
        intro x hx
        rcases List.mem_cons.1 hx with rfl | hx
        · exact hb
        · exact hb.trans (le_of_lt ((List.pairwise_cons.1 hs).1 x hx))
    rw [outer_step hs hge hne hea] at hr
    have hp := ih (labels.filter fun x => decide (i.address < x)) (locs.filter fun x => decide (i.address + i.size ≤ x.address)) h1
      (hs.filter _) (by
      obtain ⟨r, hr⟩ := hr
      cases h : mergeJoinBy labelFirst (labels.filter fun x => decide (i.address < x))
          (withCells (innerOf (locs.filter fun x => decide (i.address + i.size ≤ x.address)) is)) with
      | ok r => exact ⟨r, rfl⟩
      | error e => rw [h] at hr; exact absurd hr (by simp [Except.map]))
    intro x hx
    by_cases heq : x = i.address
    · exact .inl ⟨i, by simp, heq⟩
    · have := hge x hx
      rcases hp x (List.mem_filter.2 ⟨hx, by simp; omega⟩) with ⟨j, hj, h⟩ | h
      · exact .inl ⟨j, List.mem_cons_of_mem _ hj, h⟩
      · refine .inr fun j hj => ?_
        rcases List.mem_cons.1 hj with rfl | hj
        · omega
        · exact h j hj

end Verif
