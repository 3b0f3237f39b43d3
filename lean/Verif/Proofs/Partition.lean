import Verif.Spec.Partition
import Mathlib.Data.List.Basic
import Mathlib.Data.List.Flatten

/-! # Proofs about partitions -/

set_option linter.unusedSectionVars false

namespace Verif

section
variable {α : Type} [DecidableEq α]

theorem insertAll_eq : ∀ (l m : List (α × ℕ)), (m.map Prod.fst).Nodup →
    insertAll m l = if ((m ++ l).map Prod.fst).Nodup then .ok (m ++ l) else .error .panic
  | [], m, h => by simp [insertAll, h]
  | (x, c) :: t, m, h => by
    rw [insertAll, insertNew]
    by_cases hx : x ∈ m.map Prod.fst
    · rw [if_pos hx, if_neg]
      · rfl
      · intro hn
        rw [List.map_append, List.nodup_append] at hn
        exact hn.2.2 x hx x (by simp) rfl
    · rw [if_neg hx]
      change insertAll (m ++ [(x, c)]) t = _
      rw [insertAll_eq t, List.append_assoc]
      · rfl
      · rw [List.map_append, List.nodup_append]
        refine ⟨h, by simp, ?_⟩
        intro a ha b hb hab
        simp only [List.map_cons, List.map_nil, List.mem_singleton] at hb
        subst hb hab
        exact hx ha

/-- The map built from the classes, numbered from `n`. -/
def classMap (n : ℕ) : List (List α) → List (α × ℕ)
  | [] => []
  | c :: t => c.map (fun x => (x, n)) ++ classMap (n + 1) t

theorem classMap_keys : ∀ (n : ℕ) (l : List (List α)), (classMap n l).map Prod.fst = l.flatten
  | _, [] => rfl
  | n, c :: t => by
    rw [classMap, List.map_append, classMap_keys (n + 1) t, List.map_map, List.flatten_cons]
    congr 1
    exact List.map_id c

theorem mem_classMap {x : α} {c : ℕ} : ∀ {n : ℕ} {l : List (List α)},
    (x, c) ∈ classMap n l ↔ ∃ i cls, l[i]? = some cls ∧ x ∈ cls ∧ c = n + i
  | n, [] => by simp [classMap]
  | n, cls :: t => by
    rw [classMap, List.mem_append, mem_classMap]
    constructor
    · rintro (h | ⟨i, cls', h1, h2, h3⟩)
      · obtain ⟨y, hy, he⟩ := List.mem_map.1 h
        cases he
        exact ⟨0, cls, rfl, hy, rfl⟩
      · exact ⟨i + 1, cls', h1, h2, by omega⟩
    · rintro ⟨i, cls', h1, h2, h3⟩
      cases i with
      | zero =>
        cases h1
        exact .inl (List.mem_map.2 ⟨x, h2, by rw [h3]; rfl⟩)
      | succ i => exact .inr ⟨i, cls', h1, h2, by omega⟩

theorem fromIterLoop_eq : ∀ (l : List (List α)) (m : List (α × ℕ)) (n : ℕ),
    (m.map Prod.fst).Nodup → fromIterLoop l m n =
      if ((m ++ classMap n (l.filter fun c => 1 < c.length)).map Prod.fst).Nodup then
        .ok ⟨m ++ classMap n (l.filter fun c => 1 < c.length),
          n + (l.filter fun c => 1 < c.length).length⟩
      else .error .panic
  | [], m, n, h => by simp [fromIterLoop, classMap, h]
  | cls :: t, m, n, h => by
    rw [fromIterLoop]
    by_cases hc : cls.length > 1
    · rw [if_pos hc, insertAll_eq _ _ h, List.filter_cons_of_pos (by simpa using hc), classMap,
        ← List.append_assoc]
      by_cases hn : ((m ++ cls.map fun x => (x, n)).map Prod.fst).Nodup
      · rw [if_pos hn]
        change fromIterLoop t (m ++ cls.map fun x => (x, n)) (n + 1) = _
        rw [fromIterLoop_eq t _ _ hn, List.length_cons]
        have : ∀ k, n + 1 + k = n + (k + 1) := by omega
        rw [this]
      · rw [if_neg hn, if_neg]
        · rfl
        · intro hn'
          rw [List.map_append, List.nodup_append] at hn'
          exact hn hn'.1
    · rw [if_neg hc, List.filter_cons_of_neg (by simpa using hc)]
      exact fromIterLoop_eq t m n h

theorem fromIter_eq (l : List (List α)) : Partition.fromIter l =
    if (l.filter fun c => 1 < c.length).flatten.Nodup then
      .ok ⟨classMap 0 (l.filter fun c => 1 < c.length), (l.filter fun c => 1 < c.length).length⟩
    else .error .panic := by
  rw [Partition.fromIter, fromIterLoop_eq _ _ _ (by simp), List.nil_append, Nat.zero_add]
  have e := classMap_keys 0 (l.filter fun c => 1 < c.length)
  by_cases h : (l.filter fun c => 1 < c.length).flatten.Nodup
  · rw [if_pos h, if_pos (by rw [e]; exact h)]
  · rw [if_neg h, if_neg (by rw [e]; exact h)]

theorem exists_two {c : List α} (h1 : 1 < c.length) (h2 : c.Nodup) : ∃ x ∈ c, ∃ y ∈ c, x ≠ y := by
  match c, h1, h2 with
  | x :: y :: t, _, h => exact ⟨x, by simp, y, by simp, fun e => by simp [e] at h⟩

theorem classMap_wf {l : List (List α)} (h1 : ∀ c ∈ l, 1 < c.length) (h2 : l.flatten.Nodup) :
    (⟨classMap 0 l, l.length⟩ : Partition α).WF ∧
    ∀ x y, (⟨classMap 0 l, l.length⟩ : Partition α).Same x y ↔ classesSame l x y := by
  refine ⟨⟨?_, ?_, ?_⟩, ?_⟩
  · rw [Partition.elements, classMap_keys]
    exact h2
  · rintro ⟨x, c⟩ hx
    obtain ⟨i, cls, h3, -, h4⟩ := mem_classMap.1 hx
    have := (List.getElem?_eq_some_iff.1 h3).1
    simp only at *
    omega
  · intro c hc
    simp only at hc
    have hm := List.getElem_mem hc
    obtain ⟨x, hx, y, hy, hne⟩ := exists_two (h1 _ hm) ((List.nodup_flatten.1 h2).1 _ hm)
    exact ⟨x, y, hne, mem_classMap.2 ⟨c, _, List.getElem?_eq_getElem hc, hx, by omega⟩,
      mem_classMap.2 ⟨c, _, List.getElem?_eq_getElem hc, hy, by omega⟩⟩
  · intro x y
    rw [Partition.Same, classesSame]
    refine or_congr Iff.rfl ?_
    simp only
    constructor
    · rintro ⟨c, hx, hy⟩
      obtain ⟨i, cls, a1, a2, a3⟩ := mem_classMap.1 hx
      obtain ⟨j, cls', b1, b2, b3⟩ := mem_classMap.1 hy
      have : i = j := by omega
      subst this
      rw [a1] at b1
      cases b1
      exact ⟨cls, List.mem_of_getElem? a1, a2, b2⟩
    · rintro ⟨cls, hc, hx, hy⟩
      obtain ⟨i, hi⟩ := List.mem_iff_getElem?.1 hc
      exact ⟨0 + i, mem_classMap.2 ⟨i, cls, hi, hx, rfl⟩, mem_classMap.2 ⟨i, cls, hi, hy, rfl⟩⟩

theorem Partition.WF.unique {p : Partition α} (h : p.WF) {x : α} {c d : ℕ} (hc : (x, c) ∈ p.classOf)
    (hd : (x, d) ∈ p.classOf) : c = d := by
  have := List.inj_on_of_nodup_map h.nodup hc hd rfl
  exact congrArg Prod.snd this

/-- The classes of a well-formed partition. -/
def Partition.classList (l : List (α × ℕ)) (n : ℕ) : List (List α) :=
  (List.range n).map fun c => (l.filter fun x => x.2 = c).map Prod.fst

theorem toClassesLoop_eq (n : ℕ) : ∀ (l done : List (α × ℕ)), (∀ x ∈ l, x.2 < n) →
    toClassesLoop l (Partition.classList done n) = .ok (Partition.classList (done ++ l) n)
  | [], done, _ => by simp [toClassesLoop]
  | (x, c) :: t, done, h => by
    have hc : c < n := h (x, c) (by simp)
    have e1 : (Partition.classList done n)[c]? =
        some ((done.filter fun x => x.2 = c).map Prod.fst) := by
      simp [Partition.classList, List.getElem?_range hc]
    have e2 : (Partition.classList done n).set c (((done.filter fun x => x.2 = c).map Prod.fst) ++ [x]) =
        Partition.classList (done ++ [(x, c)]) n := by
      refine List.ext_getElem? fun i => ?_
      by_cases hi : i = c
      · subst hi
        rw [List.getElem?_set_self (by simpa [Partition.classList] using hc)]
        simp [Partition.classList, List.getElem?_range hc]
      · rw [List.getElem?_set_ne (Ne.symm hi)]
        simp only [Partition.classList, List.getElem?_map]
        cases hr : (List.range n)[i]? with
        | none => rfl
        | some j =>
          have hj : j = i := by
            have := List.getElem?_eq_some_iff.1 hr
            obtain ⟨_, h2⟩ := this
            rw [List.getElem_range] at h2
            exact h2.symm
          subst hj
          simp [List.filter_append, Ne.symm hi]
    rw [toClassesLoop, e1]
    simp only
    rw [e2, toClassesLoop_eq n t _ fun y hy => h y (by simp [hy]), List.append_assoc]
    rfl

theorem classList_nil (n : ℕ) : Partition.classList ([] : List (α × ℕ)) n = List.replicate n [] := by
  rw [Partition.classList, List.eq_replicate_iff]
  simp

theorem mem_classList {l : List (α × ℕ)} {n : ℕ} {cls : List α} :
    cls ∈ Partition.classList l n ↔ ∃ c < n, cls = (l.filter fun x => x.2 = c).map Prod.fst := by
  simp only [Partition.classList, List.mem_map, List.mem_range]
  exact exists_congr fun c => and_congr Iff.rfl eq_comm

theorem mem_class {l : List (α × ℕ)} {c : ℕ} {x : α} :
    x ∈ (l.filter fun x => x.2 = c).map Prod.fst ↔ (x, c) ∈ l := by
  simp

theorem nodup_two {c : List α} {x y : α} (hx : x ∈ c) (hy : y ∈ c) (h : x ≠ y) : 1 < c.length := by
  match c, hx, hy with
  | [a], hx, hy =>
    rw [List.mem_singleton] at hx hy
    exact absurd (hx.trans hy.symm) h
  | a :: b :: t, _, _ => simp

/-- The classes of a well-formed partition, for any order of iteration. -/
theorem toClasses_ok {p : Partition α} (h : p.WF) {r : Except LoopStop (List (List α))}
    (hr : p.ToClasses r) :
    ∃ classes, r = .ok classes ∧ IsClasses classes ∧ classes.length = p.numClasses ∧
      ∀ x y, classesSame classes x y ↔ p.Same x y := by
  obtain ⟨l, hp, rfl⟩ := hr
  have hn : (l.map Prod.fst).Nodup := (hp.map _).nodup_iff.2 h.nodup
  refine ⟨Partition.classList l p.numClasses, ?_, ⟨?_, ?_⟩, ?_, ?_⟩
  · have := toClassesLoop_eq p.numClasses l [] fun x hx => h.valid x (hp.mem_iff.1 hx)
    rw [classList_nil, List.nil_append] at this
    exact this
  · intro cls hc
    obtain ⟨c, hcn, rfl⟩ := mem_classList.1 hc
    obtain ⟨x, y, hne, hx, hy⟩ := h.two c hcn
    exact nodup_two (mem_class.2 (hp.mem_iff.2 hx)) (mem_class.2 (hp.mem_iff.2 hy)) hne
  · rw [List.nodup_flatten]
    constructor
    · intro cls hc
      obtain ⟨c, hcn, rfl⟩ := mem_classList.1 hc
      exact hn.sublist (List.filter_sublist.map _)
    · rw [Partition.classList, List.pairwise_map]
      refine List.nodup_range.pairwise_of_forall_ne ?_
      intro a _ b _ hab x hx hy
      rw [mem_class] at hx hy
      exact hab (congrArg Prod.snd (List.inj_on_of_nodup_map hn hx hy rfl))
  · simp [Partition.classList]
  · intro x y
    refine or_congr Iff.rfl ?_
    constructor
    · rintro ⟨cls, hc, hx, hy⟩
      obtain ⟨c, hcn, rfl⟩ := mem_classList.1 hc
      exact ⟨c, hp.mem_iff.1 (mem_class.1 hx), hp.mem_iff.1 (mem_class.1 hy)⟩
    · rintro ⟨c, hx, hy⟩
      exact ⟨_, mem_classList.2 ⟨c, h.valid _ hx, rfl⟩, mem_class.2 (hp.mem_iff.2 hx),
        mem_class.2 (hp.mem_iff.2 hy)⟩

theorem get_iff {p : Partition α} (h : p.WF) {x : α} {c : ℕ} :
    p.get x = some c ↔ (x, c) ∈ p.classOf := by
  rw [Partition.get]
  have hn := h.nodup
  rw [Partition.elements] at hn
  generalize p.classOf = l at hn
  induction l with
  | nil => simp
  | cons y t ih =>
    obtain ⟨y, d⟩ := y
    rw [List.map_cons, List.nodup_cons] at hn
    rw [List.lookup_cons, List.mem_cons]
    by_cases hxy : x = y
    · subst hxy
      simp only [beq_self_eq_true, Option.some.injEq, Prod.mk.injEq, true_and]
      constructor
      · exact fun h => .inl h.symm
      · rintro (h | h)
        · exact h.symm
        · exact absurd (List.mem_map.2 ⟨_, h, rfl⟩) hn.1
    · rw [beq_false_of_ne hxy]
      simp only [Prod.mk.injEq, hxy, false_and, false_or]
      exact ih hn.2

/-- Intersection, for any order of iteration. -/
theorem intersectedWith_ok {p q : Partition α} (hp : p.WF) (hq : q.WF)
    {r : Except LoopStop (Partition α)} (h : p.IntersectedWith q r) :
    ∃ s, r = .ok s ∧ s.WF ∧ ∀ x y, s.Same x y ↔ p.Same x y ∧ q.Same x y := by
  obtain ⟨l, vs, hl, hvs, rfl⟩ := h
  set g := l.filterMap fun x => (q.get x.1).map fun b => ((x.2, b), x.1) with hg
  have hmem : ∀ a b x, ((a, b), x) ∈ g ↔ (x, a) ∈ p.classOf ∧ (x, b) ∈ q.classOf := by
    intro a b x
    rw [hg, List.mem_filterMap]
    constructor
    · rintro ⟨⟨y, c⟩, hy, he⟩
      obtain ⟨d, hd, he⟩ := Option.map_eq_some_iff.1 he
      cases he
      exact ⟨hl.mem_iff.1 hy, (get_iff hq).1 hd⟩
    · rintro ⟨ha, hb⟩
      exact ⟨(x, a), hl.mem_iff.2 ha, by rw [(get_iff hq).2 hb]; rfl⟩
  have hgn : (g.map Prod.snd).Nodup := by
    have hs : (g.map Prod.snd).Sublist (l.map Prod.fst) := by
      rw [hg]
      clear hg hmem hl hvs
      induction l with
      | nil => simp
      | cons y t ih =>
        rw [List.filterMap_cons]
        cases q.get y.1 with
        | none => exact ih.cons _
        | some b => exact ih.cons_cons _
    exact ((hl.map Prod.fst).nodup_iff.2 hp.nodup).sublist hs
  have hgrp : ∀ cls, cls ∈ vs ↔ ∃ k ∈ g.map Prod.fst,
      cls = (g.filter fun x => x.1 = k).map Prod.snd := by
    intro cls
    rw [hvs.mem_iff]
    simp only [groupMap, List.map_map, List.mem_map, List.mem_dedup, Function.comp]
    exact exists_congr fun k => and_congr Iff.rfl eq_comm
  have hmg : ∀ k x, x ∈ (g.filter fun y => y.1 = k).map Prod.snd ↔ (k, x) ∈ g := by
    intro k x
    simp
  have hflat : (vs.filter fun c => 1 < c.length).flatten.Nodup := by
    have hfl : vs.flatten.Nodup := by
      rw [hvs.flatten.nodup_iff, List.nodup_flatten]
      constructor
      · intro cls hc
        obtain ⟨k, -, rfl⟩ := (hgrp cls).1 (hvs.mem_iff.2 hc)
        exact hgn.sublist (List.filter_sublist.map _)
      · rw [groupMap, List.map_map, List.pairwise_map]
        refine (List.nodup_dedup _).pairwise_of_forall_ne ?_
        intro a _ b _ hab x hx hy
        simp only [Function.comp] at hx hy
        rw [hmg] at hx hy
        exact hab (congrArg Prod.fst (List.inj_on_of_nodup_map hgn hx hy rfl))
    exact hfl.sublist List.filter_sublist.flatten
  have hlen : ∀ c ∈ vs.filter fun c => 1 < c.length, 1 < c.length := by
    intro c hc
    simpa using (List.mem_filter.1 hc).2
  obtain ⟨h1, h2⟩ := classMap_wf hlen hflat
  refine ⟨_, by rw [fromIter_eq, if_pos hflat], h1, fun x y => ?_⟩
  rw [h2, classesSame, Partition.Same, Partition.Same]
  by_cases hxy : x = y
  · simp [hxy]
  · simp only [hxy, false_or]
    constructor
    · rintro ⟨cls, hc, hx, hy⟩
      obtain ⟨⟨a, b⟩, -, rfl⟩ := (hgrp cls).1 (List.mem_filter.1 hc).1
      rw [hmg, hmem] at hx hy
      exact ⟨⟨a, hx.1, hy.1⟩, b, hx.2, hy.2⟩
    · rintro ⟨⟨a, hxa, hya⟩, b, hxb, hyb⟩
      have hx := (hmg (a, b) x).2 ((hmem a b x).2 ⟨hxa, hxb⟩)
      have hy := (hmg (a, b) y).2 ((hmem a b y).2 ⟨hya, hyb⟩)
      refine ⟨_, List.mem_filter.2 ⟨(hgrp _).2 ⟨(a, b), ?_, rfl⟩, ?_⟩, hx, hy⟩
      · exact List.mem_map.2 ⟨((a, b), x), (hmem a b x).2 ⟨hxa, hxb⟩, rfl⟩
      · simpa using nodup_two hx hy hxy

theorem intersectedWith_exists (p q : Partition α) : ∃ r, p.IntersectedWith q r :=
  ⟨_, p.classOf, _, .refl _, .refl _, rfl⟩

theorem intersectFold_ok : ∀ {ps : List (Partition α)} {p : Partition α}
    {r : Except LoopStop (Partition α)}, p.WF → (∀ q ∈ ps, q.WF) → IntersectFold p ps r →
    ∃ s, r = .ok s ∧ s.WF ∧ ∀ x y, s.Same x y ↔ ∀ q ∈ p :: ps, q.Same x y
  | [], p, r, hp, _, h => by
    cases h
    exact ⟨p, rfl, hp, by simp⟩
  | q :: t, p, r, hp, hq, h => by
    cases h with
    | @cons _ _ _ p' _ h1 h2 =>
      obtain ⟨s, e, h3, h4⟩ := intersectedWith_ok hp (hq q (by simp)) h1
      cases e
      obtain ⟨s', e, h5, h6⟩ := intersectFold_ok h3 (fun x hx => hq x (by simp [hx])) h2
      refine ⟨s', e, h5, fun x y => ?_⟩
      rw [h6]
      simp only [List.forall_mem_cons, h4, and_assoc]
    | panic h1 =>
      obtain ⟨s, e, -⟩ := intersectedWith_ok hp (hq q (by simp)) h1
      cases e

theorem intersectFold_exists : ∀ {ps : List (Partition α)} {p : Partition α}, p.WF →
    (∀ q ∈ ps, q.WF) → ∃ r, IntersectFold p ps r
  | [], p, _, _ => ⟨_, .nil⟩
  | q :: t, p, hp, hq => by
    obtain ⟨r, hr⟩ := intersectedWith_exists p q
    obtain ⟨s, e, h3, -⟩ := intersectedWith_ok hp (hq q (by simp)) hr
    subst e
    obtain ⟨r', hr'⟩ := intersectFold_exists (ps := t) h3 fun x hx => hq x (by simp [hx])
    exact ⟨r', .cons hr hr'⟩

theorem intersectMany_ok {ps : List (Partition α)} (hne : ps ≠ []) (hw : ∀ q ∈ ps, q.WF)
    {r : Except LoopStop (Partition α)} (h : IntersectMany ps r) :
    ∃ s, r = .ok s ∧ s.WF ∧ ∀ x y, s.Same x y ↔ ∀ q ∈ ps, q.Same x y := by
  cases ps with
  | nil => exact absurd rfl hne
  | cons p t => exact intersectFold_ok (hw p (by simp)) (fun q hq => hw q (by simp [hq])) h

theorem intersectMany_exists {ps : List (Partition α)} (hw : ∀ q ∈ ps, q.WF) :
    ∃ r, IntersectMany ps r := by
  cases ps with
  | nil => exact ⟨_, rfl⟩
  | cons p t => exact intersectFold_exists (hw p (by simp)) fun q hq => hw q (by simp [hq])

theorem chunks_spec {β : Type} {size : ℕ} (hs : 0 < size) : ∀ (n : ℕ) (l : List β), l.length ≤ n →
    (chunks size n l).flatten = l ∧ (∀ c ∈ chunks size n l, c ≠ []) ∧
      (chunks size n l).length * size < l.length + size
  | 0, l, h => by
    have : l = [] := List.length_eq_zero_iff.1 (by omega)
    subst this
    simp [chunks, hs]
  | n + 1, l, h => by
    rw [chunks]
    by_cases hl : l = []
    · subst hl
      simp [hs]
    · have hpos := List.length_pos_iff.2 hl
      have he : l.isEmpty = false := by simpa using hl
      rw [he, if_neg (by simp)]
      obtain ⟨h1, h2, h3⟩ := chunks_spec hs n (l.drop size) (by rw [List.length_drop]; omega)
      refine ⟨by rw [List.flatten_cons, h1, List.take_append_drop], ?_, ?_⟩
      · intro c hc
        rcases List.mem_cons.1 hc with rfl | hc
        · intro h0
          have := congrArg List.length h0
          rw [List.length_take, List.length_nil] at this
          omega
        · exact h2 c hc
      · rw [List.length_cons, Nat.add_mul, Nat.one_mul]
        rw [List.length_drop] at h3
        by_cases hsl : size ≤ l.length
        · omega
        · have hd : l.drop size = [] := List.drop_eq_nil_of_le (by omega)
          rw [hd] at *
          have : (chunks size n ([] : List β)).length = 0 := by
            cases n <;> simp [chunks]
          rw [this]
          omega

theorem parallelIntersect_ok {ps : List (Partition α)} {r : Except LoopStop (Partition α)}
    (h : ParallelIntersect ps r) (hne : ps ≠ []) (hw : ∀ q ∈ ps, q.WF) :
    ∃ s, r = .ok s ∧ s.WF ∧ ∀ x y, s.Same x y ↔ ∀ q ∈ ps, q.Same x y := by
  induction h with
  | base _ h => exact intersectMany_ok hne hw h
  | @step ps qs r hlen hf _ ih =>
    obtain ⟨h1, h2, h3⟩ := chunks_spec (size := chunkSize) (by decide) ps.length ps le_rfl
    have hmem : ∀ c ∈ chunks chunkSize ps.length ps, ∀ q ∈ c, q ∈ ps := by
      intro c hc q hq
      rw [← h1]
      exact List.mem_flatten.2 ⟨c, hc, hq⟩
    have key : ∀ {cs : List (List (Partition α))} {qs : List (Partition α)},
        List.Forall₂ (fun c q => IntersectMany c (.ok q)) cs qs → (∀ c ∈ cs, c ≠ []) →
        (∀ c ∈ cs, ∀ q ∈ c, q.WF) → (∀ q ∈ qs, q.WF) ∧ ∀ x y, (∀ q ∈ qs, q.Same x y) ↔
          ∀ q ∈ cs.flatten, q.Same x y := by
      intro cs qs hf
      induction hf with
      | nil => simp
      | @cons c q cs qs hcq _ ih =>
        intro hc hcw
        obtain ⟨s, e, a, b⟩ := intersectMany_ok (hc c (by simp)) (hcw c (by simp)) hcq
        cases e
        obtain ⟨a', b'⟩ := ih (fun c hc' => hc c (by simp [hc'])) fun c hc' => hcw c (by simp [hc'])
        refine ⟨?_, fun x y => ?_⟩
        · intro z hz
          rcases List.mem_cons.1 hz with rfl | hz
          · exact a
          · exact a' z hz
        · rw [List.forall_mem_cons, b, b', List.flatten_cons]
          simp only [List.mem_append, or_imp, forall_and]
    obtain ⟨k1, k2⟩ := key hf h2 fun c hc q hq => hw q (hmem c hc q hq)
    obtain ⟨s, e, a, b⟩ := ih (by
      rintro rfl
      have := hf.length_eq
      rw [List.length_nil] at this
      rw [List.length_eq_zero_iff.1 this] at h1
      exact hne h1.symm) k1
    refine ⟨s, e, a, fun x y => ?_⟩
    rw [b, k2, h1]
  | @panic ps c e hlen hc hp =>
    obtain ⟨h1, h2, h3⟩ := chunks_spec (size := chunkSize) (by decide) ps.length ps le_rfl
    obtain ⟨s, e', -⟩ := intersectMany_ok (h2 c hc) (fun q hq => hw q (by
      rw [← h1]
      exact List.mem_flatten.2 ⟨c, hc, hq⟩)) hp
    cases e'

theorem parallelIntersect_exists : ∀ (n : ℕ) {ps : List (Partition α)}, ps.length ≤ n →
    (∀ q ∈ ps, q.WF) → ∃ r, ParallelIntersect ps r
  | n, ps, hn, hw => by
    by_cases hlen : ps.length ≤ chunkSize
    · obtain ⟨r, hr⟩ := intersectMany_exists hw
      exact ⟨r, .base hlen hr⟩
    · obtain ⟨h1, h2, h3⟩ := chunks_spec (size := chunkSize) (by decide) ps.length ps le_rfl
      have hmem : ∀ c ∈ chunks chunkSize ps.length ps, ∀ q ∈ c, q.WF := by
        intro c hc q hq
        refine hw q ?_
        rw [← h1]
        exact List.mem_flatten.2 ⟨c, hc, hq⟩
      have key : ∀ cs : List (List (Partition α)), (∀ c ∈ cs, c ≠ []) → (∀ c ∈ cs, ∀ q ∈ c, q.WF) →
          ∃ qs, List.Forall₂ (fun c q => IntersectMany c (.ok q)) cs qs ∧ ∀ q ∈ qs, q.WF := by
        intro cs
        induction cs with
        | nil => intro _ _; exact ⟨[], .nil, by simp⟩
        | cons c cs ih =>
          intro hc hcw
          obtain ⟨qs, a, b⟩ := ih (fun c hc' => hc c (by simp [hc'])) fun c hc' => hcw c (by simp [hc'])
          obtain ⟨r, hr⟩ := intersectMany_exists (hcw c (by simp))
          obtain ⟨s, e, a', -⟩ := intersectMany_ok (hc c (by simp)) (hcw c (by simp)) hr
          subst e
          refine ⟨s :: qs, .cons hr a, ?_⟩
          intro z hz
          rcases List.mem_cons.1 hz with rfl | hz
          · exact a'
          · exact b z hz
      obtain ⟨qs, hf, hqw⟩ := key _ h2 hmem
      have hl := hf.length_eq
      have hlt : qs.length < ps.length := by
        have e3 : (chunks chunkSize ps.length ps).length * 64 < ps.length + 64 := h3
        have e4 : ¬ ps.length ≤ 64 := hlen
        omega
      match n, hn with
      | 0, hn => omega
      | n + 1, hn =>
        obtain ⟨r, hr⟩ := parallelIntersect_exists n (ps := qs) (by omega) hqw
        exact ⟨r, .step (by omega) hf hr⟩

/-- Combination, for any order of iteration. -/
theorem combine_ok {p q : Partition α} (hp : p.WF) (hq : q.WF) {r : Except LoopStop (Partition α)}
    (h : p.Combine q r) :
    ((∃ x, x ∈ p.elements ∧ x ∈ q.elements) → r = .error .panic) ∧
    ((¬ ∃ x, x ∈ p.elements ∧ x ∈ q.elements) → ∃ s, r = .ok s ∧ s.WF ∧
      ∀ x y, s.Same x y ↔ p.Same x y ∨ q.Same x y) := by
  obtain ⟨l, hl, rfl⟩ := h
  have hln : (l.map Prod.fst).Nodup := (hl.map _).nodup_iff.2 hq.nodup
  have hle : ∀ x, x ∈ l.map Prod.fst ↔ x ∈ q.elements := fun x => (hl.map Prod.fst).mem_iff
  have hk : (l.map fun x => (x.1, x.2 + p.numClasses)).map Prod.fst = l.map Prod.fst := by
    rw [List.map_map]
    rfl
  have hiff : ((p.classOf ++ l.map fun x => (x.1, x.2 + p.numClasses)).map Prod.fst).Nodup ↔
      ¬ ∃ x, x ∈ p.elements ∧ x ∈ q.elements := by
    rw [List.map_append, hk, List.nodup_append]
    constructor
    · rintro ⟨-, -, h3⟩ ⟨x, hx, hx'⟩
      exact h3 x hx x ((hle x).2 hx') rfl
    · intro h
      refine ⟨hp.nodup, hln, ?_⟩
      intro a ha b hb hab
      subst hab
      exact h ⟨a, ha, (hle a).1 hb⟩
  rw [insertAll_eq _ _ hp.nodup]
  constructor
  · intro h
    rw [if_neg (by rw [hiff]; exact not_not_intro h)]
    rfl
  · intro h
    rw [if_pos (hiff.2 h)]
    refine ⟨_, rfl, ⟨hiff.2 h, ?_, ?_⟩, ?_⟩
    · intro x hx
      simp only at hx ⊢
      rcases List.mem_append.1 hx with hx | hx
      · have := hp.valid x hx
        omega
      · obtain ⟨y, hy, rfl⟩ := List.mem_map.1 hx
        have := hq.valid y (hl.mem_iff.1 hy)
        simp only
        omega
    · intro c hc
      simp only at hc ⊢
      by_cases hc' : c < p.numClasses
      · obtain ⟨x, y, hne, hx, hy⟩ := hp.two c hc'
        exact ⟨x, y, hne, List.mem_append_left _ hx, List.mem_append_left _ hy⟩
      · obtain ⟨x, y, hne, hx, hy⟩ := hq.two (c - p.numClasses) (by omega)
        have e : c = c - p.numClasses + p.numClasses := by omega
        refine ⟨x, y, hne, List.mem_append_right _ ?_, List.mem_append_right _ ?_⟩
        · exact List.mem_map.2 ⟨_, hl.mem_iff.2 hx, by rw [← e]⟩
        · exact List.mem_map.2 ⟨_, hl.mem_iff.2 hy, by rw [← e]⟩
    · intro x y
      simp only [Partition.Same, List.mem_append, List.mem_map, Prod.mk.injEq]
      constructor
      · rintro (h1 | ⟨c, h1 | ⟨⟨x', c1⟩, h1, rfl, rfl⟩, h2 | ⟨⟨y', c2⟩, h2, rfl, hc2⟩⟩)
        · exact .inl (.inl h1)
        · exact .inl (.inr ⟨c, h1, h2⟩)
        · have := hp.valid _ h1
          simp only at *
          omega
        · have := hp.valid _ h2
          simp only at *
          omega
        · have : c1 = c2 := by
            simp only at *
            omega
          subst this
          exact .inr (.inr ⟨c1, hl.mem_iff.1 h1, hl.mem_iff.1 h2⟩)
      · rintro ((h1 | ⟨c, h1, h2⟩) | (h1 | ⟨c, h1, h2⟩))
        · exact .inl h1
        · exact .inr ⟨c, .inl h1, .inl h2⟩
        · exact .inl h1
        · exact .inr ⟨c + p.numClasses, .inr ⟨(x, c), hl.mem_iff.2 h1, rfl, rfl⟩,
            .inr ⟨(y, c), hl.mem_iff.2 h2, rfl, rfl⟩⟩

/-- Mapping of elements, for any order of iteration. -/
theorem mapElements_ok {β : Type} {p : Partition β} (hp : p.WF) {f : β → α}
    {r : Except LoopStop (Partition α)} (h : p.MapElements f r) :
    ((∃ x ∈ p.elements, ∃ y ∈ p.elements, x ≠ y ∧ f x = f y) → r = .error .panic) ∧
    ((¬ ∃ x ∈ p.elements, ∃ y ∈ p.elements, x ≠ y ∧ f x = f y) → ∃ s, r = .ok s ∧ s.WF ∧
      ∀ u v, s.Same u v ↔ u = v ∨ ∃ x y, f x = u ∧ f y = v ∧ x ∈ p.elements ∧ y ∈ p.elements ∧
        p.Same x y) := by
  obtain ⟨l, hl, rfl⟩ := h
  have hln : (l.map Prod.fst).Nodup := (hl.map _).nodup_iff.2 hp.nodup
  have hle : ∀ x, x ∈ l.map Prod.fst ↔ x ∈ p.elements := fun x => (hl.map Prod.fst).mem_iff
  have hk : (l.map fun x => (f x.1, x.2)).map Prod.fst = (l.map Prod.fst).map f := by
    rw [List.map_map, List.map_map]
    rfl
  have hiff : ((([] : List (α × ℕ)) ++ l.map fun x => (f x.1, x.2)).map Prod.fst).Nodup ↔
      ¬ ∃ x ∈ p.elements, ∃ y ∈ p.elements, x ≠ y ∧ f x = f y := by
    rw [List.nil_append, hk]
    constructor
    · rintro h ⟨x, hx, y, hy, hne, he⟩
      exact hne (List.inj_on_of_nodup_map h ((hle x).2 hx) ((hle y).2 hy) he)
    · intro h
      refine List.Nodup.map_on ?_ hln
      intro x hx y hy he
      by_contra hne
      exact h ⟨x, (hle x).1 hx, y, (hle y).1 hy, hne, he⟩
  rw [insertAll_eq _ _ (by simp)]
  constructor
  · intro h
    rw [if_neg (by rw [hiff]; exact not_not_intro h)]
    rfl
  · intro h
    rw [if_pos (hiff.2 h)]
    refine ⟨_, rfl, ⟨hiff.2 h, ?_, ?_⟩, ?_⟩
    · intro x hx
      simp only [List.nil_append] at hx ⊢
      obtain ⟨y, hy, rfl⟩ := List.mem_map.1 hx
      exact hp.valid y (hl.mem_iff.1 hy)
    · intro c hc
      simp only [List.nil_append] at hc ⊢
      obtain ⟨x, y, hne, hx, hy⟩ := hp.two c hc
      refine ⟨f x, f y, ?_, List.mem_map.2 ⟨_, hl.mem_iff.2 hx, rfl⟩,
        List.mem_map.2 ⟨_, hl.mem_iff.2 hy, rfl⟩⟩
      intro he
      exact h ⟨x, List.mem_map.2 ⟨_, hx, rfl⟩, y, List.mem_map.2 ⟨_, hy, rfl⟩, hne, he⟩
    · intro u v
      simp only [Partition.Same, List.nil_append, List.mem_map, Prod.mk.injEq]
      refine or_congr Iff.rfl ?_
      constructor
      · rintro ⟨c, ⟨⟨x, c1⟩, h1, rfl, rfl⟩, ⟨⟨y, c2⟩, h2, rfl, he⟩⟩
        simp only at he
        subst he
        have h1' := hl.mem_iff.1 h1
        have h2' := hl.mem_iff.1 h2
        exact ⟨x, y, rfl, rfl, List.mem_map.2 ⟨_, h1', rfl⟩, List.mem_map.2 ⟨_, h2', rfl⟩,
          .inr ⟨_, h1', h2'⟩⟩
      · rintro ⟨x, y, rfl, rfl, hx, hy, hxy⟩
        rcases hxy with rfl | ⟨c, h1, h2⟩
        · obtain ⟨⟨x', c⟩, hx', rfl⟩ := List.mem_map.1 hx
          exact ⟨c, ⟨_, hl.mem_iff.2 hx', rfl, rfl⟩, ⟨_, hl.mem_iff.2 hx', rfl, rfl⟩⟩
        · exact ⟨c, ⟨_, hl.mem_iff.2 h1, rfl, rfl⟩, ⟨_, hl.mem_iff.2 h2, rfl, rfl⟩⟩

end

end Verif
