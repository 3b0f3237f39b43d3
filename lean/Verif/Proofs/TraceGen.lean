import Verif.Spec.TraceGen
import Mathlib.Data.List.Sort
import Mathlib.Tactic.Linarith

/-!
# Proofs about the execution of precompiles and the original rows
-/

set_option linter.unusedSectionVars false

namespace Verif

/-! ## The dimensions of the arenas -/

section
variable {A : Type} [LinearOrder A]

/-- The entry of a key. -/
def assocGet {B : Type} (l : List (A × B)) (a : A) : Option B := (l.find? fun y => y.1 = a).map Prod.snd

theorem assocGet_cons {B : Type} (x : A × B) (l : List (A × B)) (a : A) :
    assocGet (x :: l) a = if x.1 = a then some x.2 else assocGet l a := by
  unfold assocGet
  rw [List.find?_cons]
  by_cases h : x.1 = a <;> simp [h]

/-- Sorted by keys. -/
def KeysSorted {B : Type} (l : List (A × B)) : Prop := l.Pairwise fun x y => x.1 < y.1

theorem btreeUpdate_keys {B : Type} {a : A} {new : B} {f : B → B} {l : List (A × B)} {x : A × B}
    (h : x ∈ btreeUpdate a new f l) : x.1 = a ∨ ∃ y ∈ l, y.1 = x.1 := by
  induction l with
  | nil =>
    simp only [btreeUpdate, List.mem_singleton] at h
    exact .inl (by rw [h])
  | cons y t ih =>
    obtain ⟨k, b⟩ := y
    rw [btreeUpdate] at h
    split_ifs at h with h1 h2
    · rcases List.mem_cons.1 h with rfl | h
      · exact .inl rfl
      · exact .inr ⟨x, h, rfl⟩
    · rcases List.mem_cons.1 h with rfl | h
      · exact .inl h2.symm
      · exact .inr ⟨x, List.mem_cons_of_mem _ h, rfl⟩
    · rcases List.mem_cons.1 h with rfl | h
      · exact .inr ⟨(k, b), List.mem_cons_self, rfl⟩
      · rcases ih h with h | ⟨y, hy, e⟩
        · exact .inl h
        · exact .inr ⟨y, List.mem_cons_of_mem _ hy, e⟩

theorem btreeUpdate_sorted {B : Type} {a : A} {new : B} {f : B → B} {l : List (A × B)} (h : KeysSorted l) :
    KeysSorted (btreeUpdate a new f l) := by
  induction l with
  | nil => simp [btreeUpdate, KeysSorted]
  | cons y t ih =>
    obtain ⟨k, b⟩ := y
    obtain ⟨h1, h2⟩ := List.pairwise_cons.1 h
    rw [btreeUpdate]
    split_ifs with h3 h4
    · refine List.pairwise_cons.2 ⟨?_, h⟩
      intro x hx
      rcases List.mem_cons.1 hx with rfl | hx
      · exact h3
      · exact lt_trans h3 (h1 x hx)
    · exact List.pairwise_cons.2 ⟨h1, h2⟩
    · refine List.pairwise_cons.2 ⟨?_, ih h2⟩
      intro x hx
      rcases btreeUpdate_keys hx with e | ⟨y, hy, e⟩
      · rw [e]
        exact lt_of_le_of_ne (not_lt.1 h3) (Ne.symm h4)
      · rw [← e]
        exact h1 y hy

theorem assocGet_of_lt {B : Type} {l : List (A × B)} {a : A} (h : ∀ x ∈ l, a < x.1) : assocGet l a = none := by
  unfold assocGet
  rw [Option.map_eq_none_iff, List.find?_eq_none]
  intro x hx
  simp [ne_of_gt (h x hx)]

theorem assocGet_btreeUpdate {B : Type} {a : A} {new : B} {f : B → B} {l : List (A × B)} (h : KeysSorted l) (c : A) :
    assocGet (btreeUpdate a new f l) c =
      if c = a then some (f ((assocGet l a).getD new)) else assocGet l c := by
  induction l with
  | nil =>
    rw [btreeUpdate, assocGet_cons]
    simp [assocGet, eq_comm]
  | cons y t ih =>
    obtain ⟨k, b⟩ := y
    obtain ⟨h1, h2⟩ := List.pairwise_cons.1 h
    rw [btreeUpdate]
    split_ifs with h3 h4 h5 h6 h7
    · rw [assocGet_cons, if_pos h4.symm, assocGet_of_lt]
      · rfl
      · intro x hx
        rcases List.mem_cons.1 hx with rfl | hx
        · exact h3
        · exact lt_trans h3 (h1 x hx)
    · rw [assocGet_cons, if_neg (Ne.symm h4)]
    · subst h5
      rw [assocGet_cons, assocGet_cons, if_pos h6.symm, if_pos rfl]
      rfl
    · subst h5
      rw [assocGet_cons, assocGet_cons, if_neg (Ne.symm h6), if_neg (Ne.symm h6)]
    · subst h7
      rw [assocGet_cons, if_neg (Ne.symm h5), ih h2, if_pos rfl, assocGet_cons, if_neg (Ne.symm h5)]
    · rw [assocGet_cons, ih h2, if_neg h7, assocGet_cons]

/-- The chip of an instruction and whether its record goes to the real arena. -/
def tagsOf (airs : List A) (subs : List (List (ℕ × ℕ))) : List (A × Bool) :=
  (airs.zip subs).map fun x => (x.1, !x.2.isEmpty)

/-- The dimensions by counting. -/
def countDims (acc : List (A × ArenaDimension)) (tags : List (A × Bool)) : List (A × ArenaDimension) :=
  tags.foldl (fun acc x => btreeUpdate x.1 ⟨0, 0⟩ (·.count (!x.2)) acc) acc

theorem arenaDimensions_eq {airs : List A} {subs : List (List (ℕ × ℕ))} (h : airs.length = subs.length) :
    arenaDimensions airs subs = .ok (countDims [] (tagsOf airs subs)) := by
  unfold arenaDimensions countDims tagsOf
  rw [if_neg (by simpa using h), List.foldl_map]
  simp

/-- The dimension of a chip with the given numbers of instructions. -/
def addDim (d : Option ArenaDimension) (real dummy : ℕ) : Option ArenaDimension :=
  match d with
  | some d => some ⟨d.realHeight + real, d.dummyHeight + dummy⟩
  | none => if real = 0 ∧ dummy = 0 then none else some ⟨real, dummy⟩

theorem countDims_spec (tags : List (A × Bool)) (acc : List (A × ArenaDimension)) (h : KeysSorted acc) :
    KeysSorted (countDims acc tags) ∧ ∀ a, assocGet (countDims acc tags) a =
      addDim (assocGet acc a) (tags.count (a, true)) (tags.count (a, false)) := by
  induction tags generalizing acc with
  | nil =>
    refine ⟨h, fun a => ?_⟩
    simp only [countDims, List.foldl_nil, List.count_nil, addDim]
    cases assocGet acc a <;> simp
  | cons x t ih =>
    obtain ⟨b, u⟩ := x
    obtain ⟨h1, h2⟩ := ih (btreeUpdate b ⟨0, 0⟩ (·.count (!u)) acc) (btreeUpdate_sorted h)
    refine ⟨h1, fun a => ?_⟩
    have e : countDims acc ((b, u) :: t) = countDims (btreeUpdate b ⟨0, 0⟩ (·.count (!u)) acc) t := rfl
    rw [e, h2, assocGet_btreeUpdate h]
    by_cases hab : a = b
    · subst hab
      rw [if_pos rfl]
      cases u <;> cases assocGet acc a <;>
        simp [addDim, ArenaDimension.count, Nat.add_assoc, Nat.add_comm]
    · rw [if_neg hab]
      have hba : b ≠ a := Ne.symm hab
      simp [hba]

end

/-! ## The content of the arenas -/

section
variable {A R : Type} [LinearOrder A]

/-- The records among the events of a chip. -/
def recordsOf (u : Bool) (a : A) (events : List ((A × Bool) × R)) : List R :=
  (events.filter fun e => decide (e.1 = (a, u))).map Prod.snd

theorem recordsOf_append (u : Bool) (a : A) (l l' : List ((A × Bool) × R)) :
    recordsOf u a (l ++ l') = recordsOf u a l ++ recordsOf u a l' := by
  simp [recordsOf]

theorem recordsOf_zip_length (u : Bool) (a : A) (tags : List (A × Bool)) (rs : List R)
    (h : tags.length = rs.length) : (recordsOf u a (tags.zip rs)).length = tags.count (a, u) := by
  unfold recordsOf
  induction tags generalizing rs with
  | nil => simp
  | cons x t ih =>
    cases rs with
    | nil => cases h
    | cons r rs =>
      have := ih rs (by simpa using h)
      rw [List.zip_cons_cons, List.filter_cons, List.count_cons]
      by_cases hx : x = (a, u)
      · simpa [hx] using this
      · simpa [hx] using this

/-- The arenas after the events. -/
def arenaOf (est : ℕ) (events : List ((A × Bool) × R)) (x : A × ArenaDimension) : Option (RecordArenaPair R) :=
  some ⟨⟨x.2.realHeight * est, recordsOf true x.1 events⟩, ⟨x.2.dummyHeight * est, recordsOf false x.1 events⟩⟩

/-- The index of the arenas. -/
def arenaIndexOf (dims : List (A × ArenaDimension)) : List (A × ℕ) := dims.zipIdx.map fun x => (x.1.1, x.2)

theorem find_zipIdx {B : Type} {l : List (A × B)} (h : KeysSorted l) {a : A} {y : A × ℕ} (n : ℕ)
    (hy : ((l.zipIdx n).map fun x => (x.1.1, x.2)).find? (fun y => y.1 = a) = some y) :
    y.1 = a ∧ n ≤ y.2 ∧ ∃ b, l[y.2 - n]? = some (a, b) ∧ assocGet l a = some b := by
  induction l generalizing n with
  | nil => cases hy
  | cons x t ih =>
    rw [List.zipIdx_cons, List.map_cons, List.find?_cons] at hy
    by_cases hx : x.1 = a
    · simp only [hx, decide_true, Option.some.injEq] at hy
      subst hy
      refine ⟨rfl, le_refl _, x.2, by simp [← hx], by rw [assocGet_cons, if_pos hx]⟩
    · simp only [hx, decide_false] at hy
      obtain ⟨h1, h2, b, h3, h4⟩ := ih (List.pairwise_cons.1 h).2 (n + 1) hy
      refine ⟨h1, by omega, b, ?_, by rw [assocGet_cons, if_neg hx, h4]⟩
      have : y.2 - n = (y.2 - (n + 1)) + 1 := by omega
      rw [this, List.getElem?_cons_succ, h3]

theorem find_zipIdx_isSome {B : Type} {l : List (A × B)} {a : A} {b : B} (n : ℕ) (h : assocGet l a = some b) :
    ∃ y, ((l.zipIdx n).map fun x => (x.1.1, x.2)).find? (fun y => y.1 = a) = some y := by
  induction l generalizing n with
  | nil => cases h
  | cons x t ih =>
    rw [List.zipIdx_cons, List.map_cons, List.find?_cons]
    by_cases hx : x.1 = a
    · simp [hx]
    · rw [assocGet_cons, if_neg hx] at h
      simpa [hx] using ih (n + 1) h

theorem arenaIndex_spec {dims : List (A × ArenaDimension)} (hs : KeysSorted dims) {a : A} {y : A × ℕ}
    (hy : (arenaIndexOf dims).find? (fun y => y.1 = a) = some y) :
    y.1 = a ∧ ∃ d, dims[y.2]? = some (a, d) ∧ assocGet dims a = some d := by
  obtain ⟨h1, -, d, h3, h4⟩ := find_zipIdx hs 0 hy
  exact ⟨h1, d, by simpa using h3, h4⟩

theorem keys_index_inj {B : Type} {l : List (A × B)} (hs : KeysSorted l) {i j : ℕ} {a : A} {b c : B}
    (hi : l[i]? = some (a, b)) (hj : l[j]? = some (a, c)) : i = j := by
  obtain ⟨h1, e1⟩ := List.getElem?_eq_some_iff.1 hi
  obtain ⟨h2, e2⟩ := List.getElem?_eq_some_iff.1 hj
  rcases lt_trichotomy i j with h | h | h
  · have := List.pairwise_iff_getElem.1 hs i j h1 h2 h
    rw [e1, e2] at this
    exact absurd this (lt_irrefl _)
  · exact h
  · have := List.pairwise_iff_getElem.1 hs j i h2 h1 h
    rw [e1, e2] at this
    exact absurd this (lt_irrefl _)

/-- The room left in the arenas. -/
def HasRoom (est : ℕ) (dims : List (A × ArenaDimension)) (events : List ((A × Bool) × R))
    (tags : List (A × Bool)) : Prop :=
  ∀ a d, assocGet dims a = some d →
    (recordsOf true a events).length + tags.count (a, true) ≤ d.realHeight * est ∧
    (recordsOf false a events).length + tags.count (a, false) ≤ d.dummyHeight * est

theorem push_ok {est : ℕ} {dims : List (A × ArenaDimension)} (hs : KeysSorted dims)
    {events : List ((A × Bool) × R)} {o : OriginalArenas A R} (ho : o.arenas = dims.map (arenaOf est events))
    {tag : A × Bool} {tags : List (A × Bool)} (hroom : HasRoom est dims events (tag :: tags)) {i : ℕ}
    {d : ArenaDimension} (hi : dims[i]? = some (tag.1, d)) (hd : assocGet dims tag.1 = some d) (r : R) :
    o.push ⟨i, tag.2⟩ r = .ok { o with arenas := dims.map (arenaOf est (events ++ [(tag, r)])) } ∧
    HasRoom est dims (events ++ [(tag, r)]) tags := by
  obtain ⟨a, u⟩ := tag
  have hroom' := hroom a d hd
  have hoi : o.arenas[i]? = some (arenaOf est events (a, d)) := by
    rw [ho, List.getElem?_map, hi]
    rfl
  have hset : o.arenas.set i (arenaOf est (events ++ [((a, u), r)]) (a, d)) =
      dims.map (arenaOf est (events ++ [((a, u), r)])) := by
    apply List.ext_getElem?
    intro j
    rw [List.getElem?_set, List.getElem?_map]
    split
    · rename_i hij
      subst hij
      have : i < o.arenas.length := (List.getElem?_eq_some_iff.1 hoi).1
      rw [if_pos this, hi]
      rfl
    · rename_i hij
      rw [ho, List.getElem?_map]
      cases hj : dims[j]? with
      | none => rfl
      | some x =>
        obtain ⟨b, e⟩ := x
        have hne : a ≠ b := by
          rintro rfl
          exact hij (keys_index_inj hs hi hj)
        simp [arenaOf, recordsOf, hne]
  constructor
  · unfold OriginalArenas.push
    rw [hoi]
    cases u with
    | true =>
      have hl : (recordsOf true a events).length < d.realHeight * est := by
        have := hroom'.1
        rw [List.count_cons_self] at this
        omega
      simp only [arenaOf, RecordArenaPair.push, RecordArena.push, if_pos hl, bind, Except.bind, pure, Except.pure,
        if_true]
      congr 2
      rw [← hset]
      congr 1
      simp [arenaOf, recordsOf]
    | false =>
      have hl : (recordsOf false a events).length < d.dummyHeight * est := by
        have := hroom'.2
        rw [List.count_cons_self] at this
        omega
      simp only [arenaOf, RecordArenaPair.push, RecordArena.push, if_pos hl, bind, Except.bind, pure, Except.pure,
        Bool.false_eq_true, if_false]
      congr 2
      rw [← hset]
      congr 1
      simp [arenaOf, recordsOf]
  · intro b e hb
    have h0 := hroom b e hb
    rw [List.count_cons, List.count_cons] at h0
    rw [recordsOf_append, recordsOf_append, List.length_append, List.length_append]
    have h1 : ∀ v, (recordsOf v b [((a, u), r)]).length = if ((a, u) == (b, v)) = true then 1 else 0 := by
      intro v
      by_cases hx : (a, u) = (b, v)
      · simp [recordsOf, hx]
      · simp [recordsOf, hx]
    rw [h1, h1]
    omega

variable {I S : Type}

/-- The metadata of an instruction matches its tag. -/
def MetaFor (dims : List (A × ArenaDimension)) (c : CachedMeta) (tag : A × Bool) : Prop :=
  c.useReal = tag.2 ∧ ∃ d, dims[c.arenaIndex]? = some (tag.1, d) ∧ assocGet dims tag.1 = some d

theorem executeInstructions_ok {step : I → S → Option (S × R)} {est : ℕ} {dims : List (A × ArenaDimension)}
    (hs : KeysSorted dims) {is : List I} {s s' : S} {rs : List R} (hr : Runs step is s rs s') :
    ∀ {metas : List CachedMeta} {tags : List (A × Bool)} {events : List ((A × Bool) × R)} {o : OriginalArenas A R},
    is.length = metas.length → List.Forall₂ (MetaFor dims) metas tags → o.arenas = dims.map (arenaOf est events) →
    HasRoom est dims events tags →
    executeInstructions step (is.zip metas) s o =
      .ok (s', { o with arenas := dims.map (arenaOf est (events ++ tags.zip rs)) }) ∧
    HasRoom est dims (events ++ tags.zip rs) [] := by
  induction hr with
  | nil s =>
    intro metas tags events o hlen hm ho hroom
    cases metas with
    | cons c metas => cases hlen
    | nil =>
      cases hm
      simp only [List.zip_nil_left, executeInstructions, List.append_nil]
      refine ⟨?_, hroom⟩
      rw [← ho]
  | @cons i is s s' s'' r rs h t ih =>
    intro metas tags events o hlen hm ho hroom
    cases hm with
    | nil => cases hlen
    | @cons c tag metas tags hc hm =>
      obtain ⟨hu, d, hi, hd⟩ := hc
      obtain ⟨h1, h2⟩ := push_ok hs ho hroom hi hd r
      have hc' : c = ⟨c.arenaIndex, tag.2⟩ := by rw [← hu]
      rw [List.zip_cons_cons, executeInstructions, h]
      simp only
      rw [hc', h1]
      simp only
      obtain ⟨h3, h4⟩ := ih (by simpa using hlen) hm (o := { o with
        arenas := dims.map (arenaOf est (events ++ [(tag, r)])) }) rfl h2
      rw [h3]
      simp only [List.zip_cons_cons]
      rw [List.append_assoc, List.singleton_append] at h4 ⊢
      exact ⟨rfl, h4⟩

theorem tagsOf_length {airs : List A} {subs : List (List (ℕ × ℕ))} (h : airs.length = subs.length) :
    (tagsOf airs subs).length = airs.length := by
  simp [tagsOf, h]

theorem Runs.length {step : I → S → Option (S × R)} {is : List I} {s s' : S} {rs : List R}
    (h : Runs step is s rs s') : is.length = rs.length := by
  induction h with
  | nil => rfl
  | cons _ _ ih => simp [ih]

/-- The dimensions for the instructions. -/
def dimsOf (airs : List A) (subs : List (List (ℕ × ℕ))) : List (A × ArenaDimension) :=
  countDims [] (tagsOf airs subs)

theorem dimsOf_sorted (airs : List A) (subs : List (List (ℕ × ℕ))) : KeysSorted (dimsOf airs subs) :=
  (countDims_spec _ [] List.Pairwise.nil).1

theorem dimsOf_get (airs : List A) (subs : List (List (ℕ × ℕ))) (a : A) : assocGet (dimsOf airs subs) a =
    addDim none ((tagsOf airs subs).count (a, true)) ((tagsOf airs subs).count (a, false)) :=
  (countDims_spec _ [] List.Pairwise.nil).2 a

theorem dimsOf_mem {airs : List A} {subs : List (List (ℕ × ℕ))} {a : A} {d : ArenaDimension}
    (h : assocGet (dimsOf airs subs) a = some d) :
    d = ⟨(tagsOf airs subs).count (a, true), (tagsOf airs subs).count (a, false)⟩ := by
  rw [dimsOf_get, addDim] at h
  split at h
  · cases h
  · exact (Option.some.inj h).symm

theorem dimsOf_isSome {airs : List A} {subs : List (List (ℕ × ℕ))} {tag : A × Bool}
    (h : tag ∈ tagsOf airs subs) : ∃ d, assocGet (dimsOf airs subs) tag.1 = some d := by
  rw [dimsOf_get, addDim, if_neg]
  · exact ⟨_, rfl⟩
  · obtain ⟨a, u⟩ := tag
    rintro ⟨h1, h2⟩
    cases u
    · exact List.count_eq_zero.1 h2 h
    · exact List.count_eq_zero.1 h1 h

theorem cachedMetas_ok {airs : List A} {subs : List (List (ℕ × ℕ))} (h : airs.length = subs.length) :
    ∃ metas, cachedMetas airs subs = .ok metas ∧
      List.Forall₂ (MetaFor (dimsOf airs subs)) metas (tagsOf airs subs) := by
  unfold cachedMetas
  rw [arenaDimensions_eq h]
  simp only [bind, Except.bind]
  rw [if_neg (by simpa using h)]
  have key : ∀ l : List (A × List (ℕ × ℕ)), (∀ x ∈ l, x ∈ airs.zip subs) →
      ∃ metas, l.mapM (cachedMetaOf (arenaIndexOf (dimsOf airs subs))) = .ok metas ∧
      List.Forall₂ (MetaFor (dimsOf airs subs)) metas (l.map fun x => (x.1, !x.2.isEmpty)) := by
    intro l hl
    induction l with
    | nil => exact ⟨[], rfl, .nil⟩
    | cons x t ih =>
      obtain ⟨metas, h1, h2⟩ := ih fun y hy => hl y (List.mem_cons_of_mem _ hy)
      have hx : (x.1, !x.2.isEmpty) ∈ tagsOf airs subs := List.mem_map.2 ⟨x, hl x List.mem_cons_self, rfl⟩
      obtain ⟨d, hd⟩ := dimsOf_isSome hx
      obtain ⟨y, hy⟩ := find_zipIdx_isSome 0 hd
      have hy' : (arenaIndexOf (dimsOf airs subs)).find? (fun y => y.1 = x.1) = some y := hy
      obtain ⟨h3, d', h4, h5⟩ := arenaIndex_spec (dimsOf_sorted airs subs) hy'
      refine ⟨⟨y.2, !x.2.isEmpty⟩ :: metas, ?_, .cons ⟨rfl, d', h4, h5⟩ h2⟩
      rw [List.mapM_cons, cachedMetaOf, hy', h1]
      rfl
  exact key _ fun x hx => hx

/-- The events of all calls. -/
def allEvents (tags : List (A × Bool)) (log : List (CallLog S R)) : List ((A × Bool) × R) :=
  log.flatMap fun l => tags.zip l.records

theorem allEvents_length (tags : List (A × Bool)) (log : List (CallLog S R))
    (h : ∀ l ∈ log, tags.length = l.records.length) (u : Bool) (a : A) :
    (recordsOf u a (allEvents tags log)).length = log.length * tags.count (a, u) := by
  induction log with
  | nil => simp [allEvents, recordsOf]
  | cons l t ih =>
    rw [allEvents, List.flatMap_cons, recordsOf_append, List.length_append,
      recordsOf_zip_length _ _ _ _ (h l List.mem_cons_self)]
    have := ih fun x hx => h x (List.mem_cons_of_mem _ hx)
    rw [allEvents] at this
    rw [this, List.length_cons, Nat.add_mul, Nat.one_mul, Nat.add_comm]

theorem executeSegment_ok {step : I → S → Option (S × R)} {is : List I} {airs : List A}
    {subs : List (List (ℕ × ℕ))} {est : ℕ} (h1 : airs.length = subs.length) (h2 : is.length = airs.length)
    {metas : List CachedMeta} (hm : List.Forall₂ (MetaFor (dimsOf airs subs)) metas (tagsOf airs subs))
    (log : List (CallLog S R)) : ∀ (done : List (CallLog S R)) (o : OriginalArenas A R),
    (∀ l ∈ done ++ log, Runs step is l.before l.records l.after) → (done ++ log).length ≤ est →
    o.arenas = (dimsOf airs subs).map (arenaOf est (allEvents (tagsOf airs subs) done)) →
    executeSegment step is airs subs metas est (log.map CallLog.before) (some o) =
      .ok (log.map CallLog.after, some { o with
        arenas := (dimsOf airs subs).map (arenaOf est (allEvents (tagsOf airs subs) (done ++ log)))
        numberOfCalls := o.numberOfCalls + log.length }) := by
  induction log with
  | nil =>
    intro done o _ _ ho
    simp only [List.map_nil, executeSegment, List.append_nil, List.length_nil, Nat.add_zero]
    rw [← ho]
  | cons l t ih =>
    intro done o hruns hlen ho
    have hl := hruns l (by simp)
    have htl : ∀ x ∈ done ++ l :: t, (tagsOf airs subs).length = x.records.length := by
      intro x hx
      rw [tagsOf_length h1, ← h2, (hruns x hx).length]
    have hroom : HasRoom est (dimsOf airs subs) (allEvents (tagsOf airs subs) done) (tagsOf airs subs) := by
      intro a d hd
      rw [dimsOf_mem hd]
      have hd1 : ∀ x ∈ done, (tagsOf airs subs).length = x.records.length := fun x hx =>
        htl x (List.mem_append_left _ hx)
      have hle : done.length + 1 ≤ est := by
        simp only [List.length_append, List.length_cons] at hlen
        omega
      rw [allEvents_length _ _ hd1, allEvents_length _ _ hd1]
      constructor
      · calc _ = (done.length + 1) * (tagsOf airs subs).count (a, true) := by rw [Nat.add_mul, Nat.one_mul]
          _ ≤ est * (tagsOf airs subs).count (a, true) := Nat.mul_le_mul_right _ hle
          _ = _ := Nat.mul_comm _ _
      · calc _ = (done.length + 1) * (tagsOf airs subs).count (a, false) := by rw [Nat.add_mul, Nat.one_mul]
          _ ≤ est * (tagsOf airs subs).count (a, false) := Nat.mul_le_mul_right _ hle
          _ = _ := Nat.mul_comm _ _
    have hlm : is.length = metas.length := by
      rw [hm.length_eq, tagsOf_length h1, h2]
    obtain ⟨he, -⟩ := executeInstructions_ok (dimsOf_sorted airs subs) hl hlm hm ho hroom
    rw [List.map_cons, executeSegment]
    simp only [ensureInitialized]
    rw [executeCall, if_neg (by simpa using hlm), he]
    simp only
    have hev : allEvents (tagsOf airs subs) done ++ (tagsOf airs subs).zip l.records =
        allEvents (tagsOf airs subs) (done ++ [l]) := by
      simp [allEvents]
    rw [hev]
    have := ih (done ++ [l]) { o with
        arenas := (dimsOf airs subs).map (arenaOf est (allEvents (tagsOf airs subs) (done ++ [l])))
        numberOfCalls := o.numberOfCalls + 1 } (by simpa using hruns) (by simpa using hlen) rfl
    rw [this]
    simp only [List.append_assoc, List.singleton_append, List.map_cons, List.length_cons]
    congr 4
    omega

/-- The arenas after the calls. -/
theorem executeSegment_from_start {step : I → S → Option (S × R)} {is : List I} {airs : List A}
    {subs : List (List (ℕ × ℕ))} {est : ℕ} (h1 : airs.length = subs.length) (h2 : is.length = airs.length)
    {metas : List CachedMeta} (hm : List.Forall₂ (MetaFor (dimsOf airs subs)) metas (tagsOf airs subs))
    {log : List (CallLog S R)} (hlog : log ≠ []) (hruns : ∀ l ∈ log, Runs step is l.before l.records l.after)
    (hlen : log.length ≤ est) :
    executeSegment step is airs subs metas est (log.map CallLog.before) none =
      .ok (log.map CallLog.after, some {
        arenas := (dimsOf airs subs).map (arenaOf est (allEvents (tagsOf airs subs) log))
        index := arenaIndexOf (dimsOf airs subs)
        numberOfCalls := log.length }) := by
  have key := executeSegment_ok (est := est) h1 h2 hm log [] {
        arenas := (dimsOf airs subs).map (arenaOf est (allEvents (tagsOf airs subs) ([] : List (CallLog S R))))
        index := arenaIndexOf (dimsOf airs subs)
        numberOfCalls := 0 } (by simpa using hruns) (by simpa using hlen) rfl
  simp only [List.nil_append, Nat.zero_add] at key
  obtain ⟨l, t, rfl⟩ := List.exists_cons_of_ne_nil hlog
  rw [List.map_cons, executeSegment] at key ⊢
  simp only [ensureInitialized] at key ⊢
  rw [OriginalArenas.new, arenaDimensions_eq h1]
  exact key

end

end Verif
