import Verif.Proofs.Partition

/-! # Properties of partitions -/

set_option linter.unusedSectionVars false

namespace Verif

variable {α : Type} [DecidableEq α]

/-- **C40 (construction).** Building a partition from a list of classes panics exactly if an element
occurs twice in the classes with at least two elements. Otherwise two elements are equivalent exactly if
they are in a common class. -/
theorem C40_from_iter (classes : List (List α)) :
    (¬ (classes.filter fun c => 1 < c.length).flatten.Nodup →
      Partition.fromIter classes = .error .panic) ∧
    ((classes.filter fun c => 1 < c.length).flatten.Nodup → ∃ p, Partition.fromIter classes = .ok p ∧
      p.WF ∧ (∀ x y, p.Same x y ↔ x = y ∨ ∃ c ∈ classes, 1 < c.length ∧ x ∈ c ∧ y ∈ c) ∧
      ∀ x y, p.Same x y ↔ classesSame classes x y) := by
  constructor
  · intro h
    rw [fromIter_eq, if_neg h]
  · intro h
    obtain ⟨h1, h2⟩ := classMap_wf (l := classes.filter fun c => 1 < c.length)
      (fun c hc => by simpa using (List.mem_filter.1 hc).2) h
    have h3 : ∀ x y, classesSame (classes.filter fun c => 1 < c.length) x y ↔
        x = y ∨ ∃ c ∈ classes, 1 < c.length ∧ x ∈ c ∧ y ∈ c := by
      intro x y
      simp [classesSame, and_assoc]
    refine ⟨_, by rw [fromIter_eq, if_pos h], h1, fun x y => (h2 x y).trans (h3 x y), fun x y => ?_⟩
    rw [h2, h3, classesSame]
    by_cases hxy : x = y
    · simp [hxy]
    · simp only [hxy, false_or]
      exact ⟨fun ⟨c, a, _, b⟩ => ⟨c, a, b⟩, fun ⟨c, a, b⟩ => ⟨c, a, nodup_two b.1 b.2 hxy, b⟩⟩

/-- **C40 (classes).** The classes of a partition are disjoint, have at least two elements each and give
the same equivalence, for every iteration order of the map. -/
theorem C40_to_classes {p : Partition α} (h : p.WF) :
    (∃ r, p.ToClasses r) ∧ ∀ r, p.ToClasses r → ∃ classes, r = .ok classes ∧ IsClasses classes ∧
      ∀ x y, classesSame classes x y ↔ p.Same x y := by
  refine ⟨⟨_, p.classOf, .refl _, rfl⟩, fun r hr => ?_⟩
  obtain ⟨c, h1, h2, -, h3⟩ := toClasses_ok h hr
  exact ⟨c, h1, h2, h3⟩

/-- **C40 (serialisation).** Writing a partition as a list of classes and reading it back gives a
partition with the same equivalence. -/
theorem C40_roundtrip {p : Partition α} (h : p.WF) {classes : List (List α)}
    (hc : p.ToClasses (.ok classes)) :
    ∃ q, Partition.fromIter classes = .ok q ∧ q.WF ∧ ∀ x y, q.Same x y ↔ p.Same x y := by
  obtain ⟨c, e, ⟨h1, h2⟩, -, h3⟩ := toClasses_ok h hc
  cases e
  have hf : (classes.filter fun c => 1 < c.length) = classes :=
    List.filter_eq_self.2 fun c hc => by simpa using h1 c hc
  obtain ⟨q, a, b, -, c⟩ := (C40_from_iter classes).2 (by rw [hf]; exact h2)
  exact ⟨q, a, b, fun x y => (c x y).trans (h3 x y)⟩

/-- **C40 (intersection).** Two elements are equivalent in the intersection exactly if they are equivalent
in both partitions, for every iteration order. It never panics. -/
theorem C40_intersect {p q : Partition α} (hp : p.WF) (hq : q.WF) :
    (∃ r, p.IntersectedWith q r) ∧ ∀ r, p.IntersectedWith q r →
      ∃ s, r = .ok s ∧ s.WF ∧ ∀ x y, s.Same x y ↔ p.Same x y ∧ q.Same x y :=
  ⟨intersectedWith_exists p q, fun _ => intersectedWith_ok hp hq⟩

/-- **C40 (several partitions).** Two elements are equivalent in the intersection of a non-empty list
exactly if they are equivalent in all the partitions. The intersection of no partition panics. -/
theorem C40_many {ps : List (Partition α)} (hw : ∀ p ∈ ps, p.WF) :
    (∃ r, IntersectMany ps r) ∧ ∀ r, IntersectMany ps r →
      (ps = [] → r = .error .panic) ∧
      (ps ≠ [] → ∃ s, r = .ok s ∧ s.WF ∧ ∀ x y, s.Same x y ↔ ∀ p ∈ ps, p.Same x y) := by
  refine ⟨intersectMany_exists hw, fun r hr => ⟨?_, fun hne => intersectMany_ok hne hw hr⟩⟩
  rintro rfl
  exact hr

/-- **C40 (parallel intersection).** The parallel intersection terminates, and gives the same equivalence
as the sequential one for any number of partitions, also for no partition, where both panic. -/
theorem C40_parallel {ps : List (Partition α)} (hw : ∀ p ∈ ps, p.WF) :
    (∃ r, ParallelIntersect ps r) ∧ ∀ r, ParallelIntersect ps r →
      (ps = [] → r = .error .panic) ∧
      (ps ≠ [] → ∃ s, r = .ok s ∧ s.WF ∧ (∀ x y, s.Same x y ↔ ∀ p ∈ ps, p.Same x y) ∧
        ∀ s', IntersectMany ps (.ok s') → ∀ x y, s.Same x y ↔ s'.Same x y) := by
  refine ⟨parallelIntersect_exists ps.length le_rfl hw, fun r hr => ⟨?_, fun hne => ?_⟩⟩
  · rintro rfl
    cases hr with
    | base _ h => exact h
    | step h _ _ => simp at h
    | panic h _ _ => simp at h
  · obtain ⟨s, e, h1, h2⟩ := parallelIntersect_ok hr hne hw
    refine ⟨s, e, h1, h2, fun s' hs' x y => ?_⟩
    obtain ⟨s'', e', -, h3⟩ := intersectMany_ok hne hw hs'
    cases e'
    rw [h2, h3]

/-- **C40 (combination).** Combining two partitions panics exactly if they share an element of their
classes. Otherwise two elements are equivalent exactly if they are in one of the two. -/
theorem C40_combine {p q : Partition α} (hp : p.WF) (hq : q.WF) :
    (∃ r, p.Combine q r) ∧ ∀ r, p.Combine q r →
      ((∃ x, x ∈ p.elements ∧ x ∈ q.elements) → r = .error .panic) ∧
      ((¬ ∃ x, x ∈ p.elements ∧ x ∈ q.elements) → ∃ s, r = .ok s ∧ s.WF ∧
        ∀ x y, s.Same x y ↔ p.Same x y ∨ q.Same x y) :=
  ⟨⟨_, q.classOf, .refl _, rfl⟩, fun _ => combine_ok hp hq⟩

/-- **C40 (renaming).** Mapping the elements panics exactly if two elements of the classes get the same
image. Otherwise the images are equivalent exactly if the elements are. -/
theorem C40_map {β : Type} {p : Partition β} (hp : p.WF) (f : β → α) :
    (∃ r, p.MapElements f r) ∧ ∀ r, p.MapElements f r →
      ((∃ x ∈ p.elements, ∃ y ∈ p.elements, x ≠ y ∧ f x = f y) → r = .error .panic) ∧
      ((¬ ∃ x ∈ p.elements, ∃ y ∈ p.elements, x ≠ y ∧ f x = f y) → ∃ s, r = .ok s ∧ s.WF ∧
        ∀ u v, s.Same u v ↔ u = v ∨
          ∃ x y, f x = u ∧ f y = v ∧ x ∈ p.elements ∧ y ∈ p.elements ∧ p.Same x y) :=
  ⟨⟨_, p.classOf, .refl _, rfl⟩, fun _ => mapElements_ok hp⟩

/-- Disjoint classes with the same equivalence are the same sets. -/
theorem classes_toFinset_subset {c d : List (List α)} (hc : IsClasses c)
    (hd : IsClasses d) (h : ∀ x y, classesSame c x y ↔ classesSame d x y) {s : List α} (hs : s ∈ c) :
    ∃ t ∈ d, t.toFinset = s.toFinset := by
  have part : ∀ {e : List (List α)}, IsClasses e → ∀ {s t : List α} {x : α}, s ∈ e → t ∈ e → x ∈ s →
      x ∈ t → s = t := by
    intro e he s t x hs ht hxs hxt
    have hp := (List.nodup_flatten.1 he.2).2
    obtain ⟨i, hi, rfl⟩ := List.mem_iff_getElem.1 hs
    obtain ⟨j, hj, rfl⟩ := List.mem_iff_getElem.1 ht
    rcases Nat.lt_trichotomy i j with h | rfl | h
    · exact absurd hxt (List.pairwise_iff_getElem.1 hp i j hi hj h hxs)
    · rfl
    · exact absurd hxs (List.pairwise_iff_getElem.1 hp j i hj hi h hxt)
  obtain ⟨x, hx, y, hy, hne⟩ := exists_two (hc.1 s hs) ((List.nodup_flatten.1 hc.2).1 s hs)
  obtain ⟨t, ht, hxt, -⟩ := ((h x y).1 (.inr ⟨s, hs, hx, hy⟩)).resolve_left hne
  refine ⟨t, ht, Finset.ext fun z => ?_⟩
  rw [List.mem_toFinset, List.mem_toFinset]
  by_cases hzx : x = z
  · subst hzx
    exact ⟨fun _ => hx, fun _ => hxt⟩
  · constructor
    · intro hz
      obtain ⟨s', hs', hx', hz'⟩ := ((h x z).2 (.inr ⟨t, ht, hxt, hz⟩)).resolve_left hzx
      rw [part hc hs hs' hx hx']
      exact hz'
    · intro hz
      obtain ⟨t', ht', hx', hz'⟩ := ((h x z).1 (.inr ⟨s, hs, hx, hz⟩)).resolve_left hzx
      rw [part hd ht ht' hxt hx']
      exact hz'

/-- **C40 (equality).** Two partitions compare equal exactly if they have the same equivalence, for every
iteration order and numbering of the classes. -/
theorem C40_equality {p q : Partition α} (hp : p.WF) (hq : q.WF) :
    (∃ b, p.Equal q b) ∧ ∀ b, p.Equal q b → (b = true ↔ ∀ x y, p.Same x y ↔ q.Same x y) := by
  constructor
  · obtain ⟨⟨r, hr⟩, h1⟩ := C40_to_classes hp
    obtain ⟨⟨r', hr'⟩, h2⟩ := C40_to_classes hq
    obtain ⟨c, rfl, -⟩ := h1 r hr
    obtain ⟨d, rfl, -⟩ := h2 r' hr'
    exact ⟨_, c, d, hr, hr', rfl⟩
  · rintro b ⟨c, d, hc, hd, rfl⟩
    obtain ⟨c', e, hc1, -, hc2⟩ := toClasses_ok hp hc
    cases e
    obtain ⟨d', e, hd1, -, hd2⟩ := toClasses_ok hq hd
    cases e
    rw [decide_eq_true_iff]
    simp only [← hc2, ← hd2]
    constructor
    · intro he x y
      have sub : ∀ {c d : List (List α)}, (c.map List.toFinset).toFinset =
          (d.map List.toFinset).toFinset → classesSame c x y → classesSame d x y := by
        intro c d he h
        refine h.imp id ?_
        rintro ⟨s, hs, hx, hy⟩
        have : s.toFinset ∈ (d.map List.toFinset).toFinset := by
          rw [← he, List.mem_toFinset]
          exact List.mem_map.2 ⟨s, hs, rfl⟩
        obtain ⟨t, ht, hst⟩ := List.mem_map.1 (List.mem_toFinset.1 this)
        refine ⟨t, ht, ?_, ?_⟩
        · rw [← List.mem_toFinset, hst, List.mem_toFinset]
          exact hx
        · rw [← List.mem_toFinset, hst, List.mem_toFinset]
          exact hy
      exact ⟨sub he, sub he.symm⟩
    · intro h
      refine Finset.ext fun f => ?_
      rw [List.mem_toFinset, List.mem_toFinset, List.mem_map, List.mem_map]
      constructor
      · rintro ⟨s, hs, rfl⟩
        exact classes_toFinset_subset hc1 hd1 h hs
      · rintro ⟨s, hs, rfl⟩
        exact classes_toFinset_subset hd1 hc1 (fun x y => (h x y).symm) hs

/-! ## Examples -/

/-- A partition of numbers with two classes. -/
def samplePartition : Partition ℕ := ⟨[(1, 0), (2, 0), (3, 0), (4, 1), (5, 1)], 2⟩

/-- Another one. -/
def samplePartition2 : Partition ℕ := ⟨[(2, 1), (3, 1), (1, 0), (4, 0)], 2⟩

theorem samplePartition_built :
    Partition.fromIter [[1, 2, 3], [9], [4, 5]] = .ok samplePartition := by rfl

theorem samplePartition_wf : samplePartition.WF := by
  refine ⟨by decide, by decide, ?_⟩
  intro c hc
  have : c = 0 ∨ c = 1 := by
    have : c < 2 := hc
    omega
  rcases this with rfl | rfl
  · exact ⟨1, 2, by decide, by decide, by decide⟩
  · exact ⟨4, 5, by decide, by decide, by decide⟩

theorem samplePartition2_wf : samplePartition2.WF := by
  refine ⟨by decide, by decide, ?_⟩
  intro c hc
  have : c = 0 ∨ c = 1 := by
    have : c < 2 := hc
    omega
  rcases this with rfl | rfl
  · exact ⟨1, 4, by decide, by decide, by decide⟩
  · exact ⟨2, 3, by decide, by decide, by decide⟩

/-- A class with a repeated element is refused. -/
example : Partition.fromIter [[1, 2], [2, 3]] = .error .panic := by rfl

/-- The intersection keeps `2, 3` and drops the other classes. -/
example : samplePartition.IntersectedWith samplePartition2 (.ok ⟨[(2, 0), (3, 0)], 1⟩) :=
  ⟨samplePartition.classOf, [[1], [2, 3], [4]], .refl _, by decide +kernel, by rfl⟩

/-- Renaming injectively, and not. -/
example : samplePartition.MapElements (· + 10)
    (.ok ⟨[(11, 0), (12, 0), (13, 0), (14, 1), (15, 1)], 2⟩) :=
  ⟨samplePartition.classOf, .refl _, by rfl⟩

example : samplePartition.MapElements (fun _ => 0) (.error .panic) :=
  ⟨samplePartition.classOf, .refl _, by rfl⟩

/-- Combination with a partition of other elements. -/
example : samplePartition.Combine ⟨[(11, 0), (12, 0)], 1⟩
    (.ok ⟨[(1, 0), (2, 0), (3, 0), (4, 1), (5, 1), (11, 2), (12, 2)], 3⟩) :=
  ⟨[(11, 0), (12, 0)], .refl _, by rfl⟩

end Verif
