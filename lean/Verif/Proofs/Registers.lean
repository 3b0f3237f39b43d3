import Verif.Spec.Registers
import Verif.Proofs.Memory
import Verif.Proofs.ItemDB

set_option linter.unusedSectionVars false

/-! # What is left of the accesses to a register -/

namespace Verif

open GExpr

variable {p : ℕ} [Fact p.Prime] {V : Type} [LinearOrder V]

namespace Registers

theorem knownDifferent_const {h : Handler p} {x y : ZMod p} (s : Solver p V) :
    SolverOp.run h s (.knownDifferent (const x) (const y)) = .ok (.different (x ≠ y), s) := by
  rw [SolverOp.run]
  rfl

theorem addressesDiffer_const {h : Handler p} {a : ZMod p × GExpr p V} {sp x : ZMod p}
    (ha : a ≠ (sp, const x)) (hc : a.1 = sp → ∃ y, a.2 = const y) (s : Solver p V) :
    addressesDiffer h a (sp, const x) s = .ok (true, s) := by
  obtain ⟨a1, a2⟩ := a
  unfold addressesDiffer
  simp only [knownDifferent_const, Solver.stop_bind]
  by_cases h1 : a1 = sp
  · obtain ⟨y, hy⟩ := hc h1
    simp only at hy
    subst hy h1
    have hy : y ≠ x := by rintro rfl; exact ha rfl
    simp only [ne_eq, not_true_eq_false, decide_false, knownDifferent_const, Solver.stop_bind, hy,
      not_false_eq_true, decide_true]
    rfl
  · simp only [ne_eq, h1, not_false_eq_true, decide_true]
    rfl

theorem retainDifferent_get {h : Handler p} {a b : ZMod p × GExpr p V}
    (hd : ∀ s : Solver p V, addressesDiffer h a b s = .ok (true, s)) :
    ∀ {l l' : List ((ZMod p × GExpr p V) × MemContent p V)} {s s' : Solver p V},
      retainDifferent h a l s = .ok (l', s') → mapGet b l' = mapGet b l
  | [], l', s, s', hr => by cases hr; rfl
  | (b', c) :: t, l', s, s', hr => by
    rw [retainDifferent] at hr
    cases h1 : addressesDiffer h a b' s with
    | error x => rw [h1] at hr; cases hr
    | ok r =>
      obtain ⟨d, s1⟩ := r
      rw [h1, Solver.stop_bind] at hr
      simp only at hr
      cases h2 : retainDifferent h a t s1 with
      | error x => rw [h2] at hr; cases hr
      | ok r =>
        obtain ⟨t', s2⟩ := r
        rw [h2, Solver.stop_bind] at hr
        cases hr
        have ih := retainDifferent_get hd h2
        by_cases hb : b' = b
        · subst hb
          rw [hd] at h1
          cases h1
          simp [mapGet]
        · cases d with
          | true => simp [mapGet, ih]
          | false => simp [mapGet, Ne.symm hb, ih]

theorem retainDifferent_sub {h : Handler p} {a : ZMod p × GExpr p V} :
    ∀ {l l' : List ((ZMod p × GExpr p V) × MemContent p V)} {s s' : Solver p V},
      retainDifferent h a l s = .ok (l', s') → l'.Sublist l
  | [], l', s, s', hr => by cases hr; exact List.Sublist.refl _
  | (b', c) :: t, l', s, s', hr => by
    rw [retainDifferent] at hr
    cases h1 : addressesDiffer h a b' s with
    | error x => rw [h1] at hr; cases hr
    | ok r =>
      obtain ⟨d, s1⟩ := r
      rw [h1, Solver.stop_bind] at hr
      simp only at hr
      cases h2 : retainDifferent h a t s1 with
      | error x => rw [h2] at hr; cases hr
      | ok r =>
        obtain ⟨t', s2⟩ := r
        rw [h2, Solver.stop_bind] at hr
        cases hr
        have ih := retainDifferent_sub h2
        cases d with
        | true => exact ih.cons_cons _
        | false => exact ih.cons _

theorem mapGet_mapRemove {K W : Type} [DecidableEq K] (k k' : K) : ∀ m : List (K × W),
    mapGet k' (mapRemove k m) = if k' = k then none else mapGet k' m
  | [] => by simp [mapRemove, mapGet]
  | (a, w) :: t => by
    have ih := mapGet_mapRemove k k' t
    unfold mapRemove at ih ⊢
    rw [List.filter_cons]
    by_cases ha : a = k
    · subst ha
      simp only [ne_eq, not_true_eq_false, decide_false, Bool.false_eq_true, if_false, ih]
      by_cases hk : k' = a
      · simp [hk]
      · simp [hk, mapGet]
    · simp only [ne_eq, ha, not_false_eq_true, decide_true, if_true, mapGet, ih]
      by_cases hk : k' = a
      · subst hk; simp [ha]
      · simp [hk]

theorem mem_mapInsert {K W : Type} [DecidableEq K] {k : K} {w : W} : ∀ {m : List (K × W)}
    {x : K × W}, x ∈ mapInsert k w m → x = (k, w) ∨ x ∈ m
  | [], x, h => by simpa [mapInsert] using h
  | (k', w') :: t, x, h => by
    rw [mapInsert] at h
    split at h
    · rename_i hk
      rcases List.mem_cons.1 h with h | h
      · left; rw [h, hk]
      · right; exact List.mem_cons_of_mem _ h
    · rcases List.mem_cons.1 h with h | h
      · right; rw [h]; exact List.mem_cons_self
      · rcases mem_mapInsert h with h | h
        · exact Or.inl h
        · exact Or.inr (List.mem_cons_of_mem _ h)

theorem const_inj' {x y : ZMod p} (h : (const x : GExpr p V) = const y) : x = y := by
  have := congrArg (eval (fun _ => (0 : ZMod p))) h
  rwa [eval_const, eval_const] at this

/-- The interaction is an access to the cell. -/
def At (id : ℕ) (sp x : ZMod p) (b : BusInteraction (GExpr p V)) : Bool :=
  b.busId = const (id : ZMod p) ∧ b.payload.take 2 = [const sp, const x]

theorem at_memory {id : ℕ} {sp x : ZMod p} {b : BusInteraction (GExpr p V)} {m : MemInt p V}
    (hc : memConversion id b = .ok (.memory m)) :
    At id sp x b = true ↔ (m.space, m.pointer) = (sp, const x) := by
  obtain ⟨h1, -, h3⟩ := memConversion_memory hc
  unfold At
  rw [h1, h3]
  simp only [List.take_succ_cons, List.take_zero, List.cons.injEq, and_true, true_and,
    decide_eq_true_eq, Prod.mk.injEq]
  exact ⟨fun h => ⟨const_inj' h.1, h.2⟩, fun h => ⟨by rw [h.1], h.2⟩⟩

theorem at_notMemory {id : ℕ} {sp x : ZMod p} {b : BusInteraction (GExpr p V)}
    (hc : memConversion id b = .ok .notMemory) : At id sp x b = false := by
  have := memConversion_notMemory hc (fun _ => 0)
  unfold At
  rw [decide_eq_false_iff_not]
  rintro ⟨h1, -⟩
  rw [h1, eval_const] at this
  exact this rfl

theorem clear_conversion {id : ℕ} {sp : ZMod p} {b : BusInteraction (GExpr p V)}
    (hb : KnownAccess id sp b) : memConversion id b ≠ .ok .unclear := by
  obtain ⟨bid, h1, h2⟩ := hb
  intro h
  unfold memConversion at h
  rw [h1] at h
  have e : tryToNumber (const bid : GExpr p V) = some bid := rfl
  rw [e] at h
  simp only at h
  split at h
  · rename_i hid
    obtain ⟨hm, s, pt, rest, hp, -⟩ := h2 hid
    have em : ∀ n : ZMod p, tryToNumber (const n : GExpr p V) = some n := fun _ => rfl
    rw [hp] at h
    rcases hm with hm | hm
    · rw [hm, em] at h
      simp only [if_true] at h
      split at h <;> cases h
    · rw [hm, em] at h
      by_cases h1 : (-1 : ZMod p) = 1
      · simp only [h1, if_true] at h
        split at h <;> cases h
      · simp only [h1, if_false, if_true] at h
        split at h <;> cases h
  · cases h

theorem clear_pointer {id : ℕ} {sp : ZMod p} {b : BusInteraction (GExpr p V)} {m : MemInt p V}
    (hb : KnownAccess id sp b) (hc : memConversion id b = .ok (.memory m)) :
    m.space = sp → ∃ y, m.pointer = const y := by
  obtain ⟨bid, h1, h2⟩ := hb
  obtain ⟨g1, -, g3⟩ := memConversion_memory hc
  have : bid = (id : ZMod p) := by
    rw [h1] at g1
    exact const_inj' g1
  obtain ⟨-, s, pt, rest, hp, hs⟩ := h2 this
  rw [g3] at hp
  injection hp with e1 e2
  injection e2 with e2 e3
  have e1 : m.space = s := const_inj' e1
  rw [e1, e2]
  exact hs

/-- The accesses with their indices. -/
def numbered (q : BusInteraction (GExpr p V) → Bool) (l : List (BusInteraction (GExpr p V))) :
    List (BusInteraction (GExpr p V) × ℕ) :=
  l.zipIdx.filter fun x => q x.1

def keptFirst (l : List (BusInteraction (GExpr p V) × ℕ)) :
    List (BusInteraction (GExpr p V) × ℕ) :=
  l.head?.toList.filter fun x => x.1.multiplicity = const (-1)

def keptLast (l : List (BusInteraction (GExpr p V) × ℕ)) :
    List (BusInteraction (GExpr p V) × ℕ) :=
  l.getLast?.toList.filter fun x => x.1.multiplicity = const 1

theorem numbered_append (q : BusInteraction (GExpr p V) → Bool)
    (l : List (BusInteraction (GExpr p V))) (b : BusInteraction (GExpr p V)) :
    numbered q (l ++ [b]) = numbered q l ++ if q b then [(b, l.length)] else [] := by
  unfold numbered
  rw [List.zipIdx_append, List.filter_append]
  simp only [List.zipIdx_cons, List.zipIdx_nil, Nat.zero_add, List.filter_cons, List.filter_nil]

theorem numbered_map (q : BusInteraction (GExpr p V) → Bool)
    (l : List (BusInteraction (GExpr p V))) : (numbered q l).map Prod.fst = l.filter q := by
  unfold numbered
  induction l using List.reverseRecOn with
  | nil => rfl
  | append_singleton l b ih =>
    rw [List.zipIdx_append, List.filter_append, List.map_append, ih, List.filter_append]
    congr 1
    by_cases hb : q b = true
    · simp [hb]
    · simp [hb]

theorem numbered_mem {q : BusInteraction (GExpr p V) → Bool}
    {l : List (BusInteraction (GExpr p V))} {x : BusInteraction (GExpr p V) × ℕ}
    (hx : x ∈ numbered q l) : l[x.2]? = some x.1 ∧ q x.1 = true := by
  obtain ⟨h1, h2⟩ := List.mem_filter.1 hx
  exact ⟨List.mem_zipIdx_iff_getElem?.1 h1, h2⟩

structure Inv (id : ℕ) (sp x : ZMod p) (pre : List (BusInteraction (GExpr p V)))
    (st : MemState p V) : Prop where
  entries : ∀ y ∈ st.contents, ∃ b m, pre[y.2.busIndex]? = some b ∧
    memConversion id b = .ok (.memory m) ∧ (m.space, m.pointer) = y.1
  below : ∀ k ∈ st.toRemove, k < pre.length
  pending : (mapGet (sp, const x) st.contents).map MemContent.busIndex =
    (keptLast (numbered (At id sp x) pre)).head?.map Prod.snd
  kept : (numbered (At id sp x) pre).filter (fun y => y.2 ∉ st.toRemove) =
    keptFirst (numbered (At id sp x) pre) ++ keptLast (numbered (At id sp x) pre)

theorem filter_below {q : BusInteraction (GExpr p V) → Bool}
    {l : List (BusInteraction (GExpr p V))} {R R' : List ℕ}
    (hR : ∀ k ∈ R', ∀ b, l[k]? = some b → q b = false) :
    (numbered q l).filter (fun y => y.2 ∉ R ++ R') = (numbered q l).filter (fun y => y.2 ∉ R) := by
  apply List.filter_congr
  intro y hy
  obtain ⟨h1, h2⟩ := numbered_mem hy
  have : y.2 ∉ R' := fun h => by rw [hR _ h _ h1] at h2; cases h2
  simp [this]

theorem getElem?_snoc {α : Type} {l : List α} {b c : α} {k : ℕ} (h : l[k]? = some c) :
    (l ++ [b])[k]? = some c := by
  rw [List.getElem?_append_left]
  · exact h
  · exact (List.getElem?_eq_some_iff.1 h).1

theorem step_inv {h : Handler p} {id : ℕ} {sp x : ZMod p} {pre : List (BusInteraction (GExpr p V))}
    {b : BusInteraction (GExpr p V)} {st st' : MemState p V} (hp : (1 : ZMod p) ≠ -1)
    (hb : KnownAccess id sp b) (hcl : ∀ c ∈ pre, KnownAccess id sp c)
    (ha : Alternating (accessesTo id sp x (pre ++ [b])))
    (hi : Inv id sp x pre st) (hr : memoryStep h id pre.length b st = .ok st') :
    Inv id sp x (pre ++ [b]) st' := by
  have hb' : (pre ++ [b])[pre.length]? = some b := by simp
  have hent : ∀ y ∈ st.contents, ∃ b' m, (pre ++ [b])[y.2.busIndex]? = some b' ∧
      memConversion id b' = .ok (.memory m) ∧ (m.space, m.pointer) = y.1 := by
    intro y hy
    obtain ⟨b', m, h1, h2, h3⟩ := hi.entries y hy
    exact ⟨b', m, getElem?_snoc h1, h2, h3⟩
  have hbel : ∀ k ∈ st.toRemove, k < (pre ++ [b]).length := by
    intro k hk
    have := hi.below k hk
    simp; omega
  have hnot : pre.length ∉ st.toRemove := fun hk => by have := hi.below _ hk; omega
  -- not an access to the cell
  have other : At id sp x b = false → ∀ st'' : MemState p V,
      (∀ y ∈ st''.contents, ∃ b' m, (pre ++ [b])[y.2.busIndex]? = some b' ∧
        memConversion id b' = .ok (.memory m) ∧ (m.space, m.pointer) = y.1) →
      mapGet (sp, const x) st''.contents = mapGet (sp, const x) st.contents →
      (∃ R, st''.toRemove = st.toRemove ++ R ∧ ∀ k ∈ R, k < (pre ++ [b]).length ∧
        ∀ c, (pre ++ [b])[k]? = some c → At id sp x c = false) →
      Inv id sp x (pre ++ [b]) st'' := by
    intro hq st'' h1 h2 ⟨R, h3, h4⟩
    have e : numbered (At id sp x) (pre ++ [b]) = numbered (At id sp x) pre := by
      rw [numbered_append, hq]; simp
    refine ⟨h1, ?_, ?_, ?_⟩
    · intro k hk
      rw [h3] at hk
      rcases List.mem_append.1 hk with hk | hk
      · exact hbel k hk
      · exact (h4 k hk).1
    · rw [h2, e]; exact hi.pending
    · rw [e, h3, ← hi.kept]
      apply filter_below
      intro k hk c hc
      exact (h4 k hk).2 c (getElem?_snoc hc)
  unfold memoryStep at hr
  cases hc : memConversion id b with
  | error x => rw [hc] at hr; cases hr
  | ok c =>
    rw [hc] at hr
    simp only [liftPanic, Solver.stop_bind] at hr
    cases c with
    | notMemory =>
      cases hr
      exact other (at_notMemory hc) _ hent rfl ⟨[], by simp, by simp⟩
    | unclear => exact absurd hc (clear_conversion hb)
    | memory m =>
      simp only at hr
      have hat := at_memory (sp := sp) (x := x) hc
      obtain ⟨-, hop, -⟩ := memConversion_memory hc
      by_cases hq : At id sp x b = true
      · have haddr := hat.1 hq
        have en : numbered (At id sp x) (pre ++ [b]) =
            numbered (At id sp x) pre ++ [(b, pre.length)] := by
          rw [numbered_append, hq]; simp
        -- the access before
        have hlast : ∀ y ∈ (numbered (At id sp x) pre).getLast?,
            y.1.multiplicity ≠ b.multiplicity := by
          intro y hy
          have e : accessesTo id sp x (pre ++ [b]) = (numbered (At id sp x) (pre ++ [b])).map Prod.fst := by
            rw [numbered_map]; rfl
          rw [e, en, List.map_append] at ha
          unfold Alternating at ha
          rw [List.isChain_append] at ha
          refine ha.2.2 y.1 ?_ b (by simp)
          rw [List.getLast?_map]
          rw [Option.mem_def] at hy ⊢
          rw [hy]; rfl
        have hmem : ∀ y ∈ numbered (At id sp x) pre, y.1.multiplicity = const 1 ∨
            y.1.multiplicity = const (-1) := by
          intro y hy
          obtain ⟨h1, h2⟩ := numbered_mem hy
          obtain ⟨bid, g1, g2⟩ := hcl _ (List.mem_of_getElem? h1)
          have h3 : y.1.busId = const (id : ZMod p) := by
            unfold At at h2
            exact (of_decide_eq_true h2).1
          rw [g1] at h3
          have h3 : bid = (id : ZMod p) := const_inj' h3
          exact (g2 h3).1
        rw [haddr] at hr
        rcases hop with ⟨hop, hmul⟩ | ⟨hop, hmul, -⟩
        · -- send
          rw [hop] at hr
          simp only at hr
          cases hrd : retainDifferent h (sp, const x) st.contents st.solver with
          | error x => rw [hrd] at hr; cases hr
          | ok r =>
            obtain ⟨l', s'⟩ := r
            rw [hrd, Solver.stop_bind] at hr
            cases hr
            have hsub := retainDifferent_sub hrd
            have hkl : keptLast (numbered (At id sp x) (pre ++ [b])) = [(b, pre.length)] := by
              rw [en]; simp [keptLast, hmul]
            have hkl0 : keptLast (numbered (At id sp x) pre) = [] := by
              unfold keptLast
              cases hg : (numbered (At id sp x) pre).getLast? with
              | none => rfl
              | some y =>
                have := hlast y hg
                rw [hmul] at this
                simp [this]
            have hkf : keptFirst (numbered (At id sp x) (pre ++ [b])) =
                keptFirst (numbered (At id sp x) pre) := by
              rw [en]
              unfold keptFirst
              cases hn : numbered (At id sp x) pre with
              | nil =>
                have : (const 1 : GExpr p V) ≠ const (-1) := fun h => hp (const_inj' h)
                simp [hmul, this]
              | cons y t => simp
            refine ⟨?_, hbel, ?_, ?_⟩
            · intro y hy
              rcases mem_mapInsert hy with rfl | hy
              · exact ⟨b, m, hb', hc, haddr⟩
              · exact hent y (hsub.subset hy)
            · rw [hkl]
              simp [mapGet_mapInsert]
            · rw [hkl, hkf, en, List.filter_append, hi.kept, hkl0]
              simp [hnot]
        · -- receive
          have hne : (const (-1) : GExpr p V) ≠ const 1 := fun h => hp (const_inj' h).symm
          rw [hop] at hr
          simp only at hr
          have hkl : keptLast (numbered (At id sp x) (pre ++ [b])) = [] := by
            rw [en]; simp [keptLast, hmul, hne]
          have hpend := hi.pending
          cases hgl : (numbered (At id sp x) pre).getLast? with
          | none =>
            have hnil := List.getLast?_eq_none_iff.1 hgl
            have hg : mapGet (sp, const x) st.contents = none := by
              rw [hnil] at hpend
              simpa [keptLast] using hpend
            rw [hg] at hr
            cases hr
            refine ⟨hent, hbel, ?_, ?_⟩
            · rw [hkl, hg]; rfl
            · rw [hkl, en, hnil]
              simp [keptFirst, hmul, hnot]
          | some y =>
            have hy1 : y.1.multiplicity = const 1 := by
              have h1 := hlast y hgl
              rw [hmul] at h1
              exact (hmem y (List.mem_of_getLast? hgl)).resolve_right h1
            have hkl0 : keptLast (numbered (At id sp x) pre) = [y] := by
              unfold keptLast
              rw [hgl]; simp [hy1]
            rw [hkl0] at hpend
            cases hg : mapGet (sp, const x) st.contents with
            | none => rw [hg] at hpend; cases hpend
            | some ex =>
              rw [hg] at hpend hr
              have hex : ex.busIndex = y.2 := by simpa using hpend
              simp only at hr
              cases he : equalityConstraints ex m with
              | error x => rw [he] at hr; cases hr
              | ok new =>
                rw [he, Solver.stop_bind] at hr
                cases hr
                obtain ⟨y1, y2⟩ := numbered_mem (List.mem_of_getLast? hgl)
                have hylt : y.2 < pre.length := (List.getElem?_eq_some_iff.1 y1).1
                have hkf : keptFirst (numbered (At id sp x) (pre ++ [b])) =
                    keptFirst (numbered (At id sp x) pre) := by
                  rw [en]
                  unfold keptFirst
                  cases hn : numbered (At id sp x) pre with
                  | nil => rw [hn] at hgl; cases hgl
                  | cons y t => simp
                refine ⟨fun z hz => hent z (List.mem_filter.1 hz).1, ?_, ?_, ?_⟩
                · intro k hk
                  rcases List.mem_append.1 hk with hk | hk
                  · exact hbel k hk
                  · simp only [List.mem_cons, List.not_mem_nil, or_false] at hk
                    rw [List.length_append, List.length_singleton]
                    omega
                · rw [hkl]
                  simp [mapGet_mapRemove]
                · rw [hkl, hkf, en, List.append_nil, List.filter_append]
                  have e1 : ([(b, pre.length)] : List (BusInteraction (GExpr p V) × ℕ)).filter
                      (fun z => z.2 ∉ st.toRemove ++ [pre.length, ex.busIndex]) = [] := by simp
                  have e2 : (numbered (At id sp x) pre).filter
                      (fun z => z.2 ∉ st.toRemove ++ [pre.length, ex.busIndex]) =
                      ((numbered (At id sp x) pre).filter (fun z => z.2 ∉ st.toRemove)).filter
                        (fun z => z.2 ≠ y.2) := by
                    rw [List.filter_filter]
                    apply List.filter_congr
                    intro z hz
                    have hzlt := (List.getElem?_eq_some_iff.1 (numbered_mem hz).1).1
                    have : z.2 ≠ pre.length := by omega
                    simp [hex, this, and_comm]
                  rw [e1, e2, hi.kept, hkl0, List.append_nil, List.filter_append]
                  have e3 : ([y] : List (BusInteraction (GExpr p V) × ℕ)).filter
                      (fun z => z.2 ≠ y.2) = [] := by simp
                  rw [e3, List.append_nil]
                  apply List.filter_eq_self.2
                  intro z hz
                  unfold keptFirst at hz
                  obtain ⟨z1, z2⟩ := List.mem_filter.1 hz
                  have z1 : z ∈ numbered (At id sp x) pre := by
                    apply List.mem_of_mem_head?
                    simpa using z1
                  have z2 := of_decide_eq_true z2
                  have z3 := (numbered_mem z1).1
                  apply decide_eq_true
                  intro h
                  rw [h, y1] at z3
                  rw [← Option.some.inj z3, hy1] at z2
                  exact hne z2.symm
      · have hq' : At id sp x b = false := by simpa using hq
        have hne : (m.space, m.pointer) ≠ (sp, const x) := fun h => hq (hat.2 h)
        cases hop' : m.op with
        | getPrevious =>
          rw [hop'] at hr
          simp only at hr
          cases hg : mapGet (m.space, m.pointer) st.contents with
          | none =>
            rw [hg] at hr
            cases hr
            exact other hq' _ hent rfl ⟨[], by simp, by simp⟩
          | some ex =>
            rw [hg] at hr
            simp only at hr
            cases he : equalityConstraints ex m with
            | error x => rw [he] at hr; cases hr
            | ok new =>
              rw [he, Solver.stop_bind] at hr
              cases hr
              refine other hq' _ (fun y hy => hent y (List.mem_filter.1 hy).1) ?_
                ⟨_, rfl, ?_⟩
              · rw [mapGet_mapRemove, if_neg (Ne.symm hne)]
              · intro k hk
                obtain ⟨b', m', g1, g2, g3⟩ := hi.entries _ (mapGet_mem hg)
                simp only [List.mem_cons, List.not_mem_nil, or_false] at hk
                rcases hk with rfl | rfl
                · refine ⟨by simp, fun c hc' => ?_⟩
                  rw [hb'] at hc'
                  cases hc'
                  exact hq'
                · have g1' := getElem?_snoc (b := b) g1
                  refine ⟨(List.getElem?_eq_some_iff.1 g1').1, fun c hc' => ?_⟩
                  rw [g1'] at hc'
                  cases hc'
                  have := at_memory (sp := sp) (x := x) g2
                  rw [g3] at this
                  by_contra hcon
                  exact hne (this.1 (by simpa using hcon))
        | setNew =>
          rw [hop'] at hr
          simp only at hr
          cases hrd : retainDifferent h (m.space, m.pointer) st.contents st.solver with
          | error x => rw [hrd] at hr; cases hr
          | ok r =>
            obtain ⟨l', s'⟩ := r
            rw [hrd, Solver.stop_bind] at hr
            cases hr
            have hsub := retainDifferent_sub hrd
            refine other hq' _ ?_ ?_ ⟨[], by simp, by simp⟩
            · intro y hy
              rcases mem_mapInsert hy with rfl | hy
              · exact ⟨b, m, hb', hc, rfl⟩
              · exact hent y (hsub.subset hy)
            · rw [mapGet_mapInsert, if_neg (Ne.symm hne)]
              exact retainDifferent_get (addressesDiffer_const hne (clear_pointer hb hc)) hrd

theorem loop_inv {h : Handler p} {id : ℕ} {sp x : ZMod p} (hp : (1 : ZMod p) ≠ -1) :
    ∀ {suf pre : List (BusInteraction (GExpr p V))} {st st' : MemState p V},
      (∀ c ∈ pre ++ suf, KnownAccess id sp c) → Alternating (accessesTo id sp x (pre ++ suf)) →
      Inv id sp x pre st → memoryLoop h id pre.length suf st = .ok st' →
      Inv id sp x (pre ++ suf) st'
  | [], pre, st, st', _, _, hi, hr => by cases hr; rw [List.append_nil]; exact hi
  | b :: t, pre, st, st', hcl, ha, hi, hr => by
    rw [memoryLoop] at hr
    cases h1 : memoryStep h id pre.length b st with
    | error x => rw [h1] at hr; cases hr
    | ok st1 =>
      rw [h1, Solver.stop_bind] at hr
      have e : pre ++ b :: t = (pre ++ [b]) ++ t := by simp
      rw [e] at ha hcl ⊢
      have hi1 : Inv id sp x (pre ++ [b]) st1 := by
        refine step_inv hp (hcl b (by simp)) (fun c hc => hcl c (by simp [hc])) ?_ hi h1
        have := ha
        unfold accessesTo Alternating at this ⊢
        rw [List.filter_append] at this
        exact this.left_of_append
      refine loop_inv (h := h) hp hcl ha hi1 ?_
      rw [List.length_append, List.length_singleton]
      exact hr

theorem optimize {h : Handler p} {id : ℕ} {sp x : ZMod p} (hp : (1 : ZMod p) ≠ -1)
    {s s' : ConstraintSystem p V} {solver solver' : Solver p V}
    (hcl : ∀ c ∈ s.bus, KnownAccess id sp c) (ha : Alternating (accessesTo id sp x s.bus))
    (hr : optimizeMemory h (some id) s solver = .ok (s', solver')) :
    accessesTo id sp x s'.bus =
      firstReceive (accessesTo id sp x s.bus) ++ lastSend (accessesTo id sp x s.bus) := by
  simp only [optimizeMemory, redundantMemoryInteractions] at hr
  cases h1 : memoryLoop h id 0 s.bus ⟨[], [], [], solver⟩ with
  | error x => rw [h1] at hr; cases hr
  | ok st =>
    have hi0 : Inv id sp x ([] : List (BusInteraction (GExpr p V))) ⟨[], [], [], solver⟩ :=
      ⟨by simp, by simp, rfl, rfl⟩
    have hi := loop_inv hp (pre := []) (suf := s.bus) (by simpa using hcl) (by simpa using ha) hi0 h1
    rw [h1, Solver.stop_bind] at hr
    cases h2 : SolverOp.run h st.solver (.addAlgebraic st.newConstraints) with
    | error x => rw [h2] at hr; cases hr
    | ok r =>
      rw [h2] at hr
      cases hr
      have hk := hi.kept
      rw [List.nil_append] at hk
      have hk := congrArg (List.map Prod.fst) hk
      rw [List.map_append] at hk
      have e0 : accessesTo id sp x s.bus = (numbered (At id sp x) s.bus).map Prod.fst := by
        rw [numbered_map]; rfl
      have e1 : (keptFirst (numbered (At id sp x) s.bus)).map Prod.fst =
          firstReceive (accessesTo id sp x s.bus) := by
        rw [e0]
        unfold keptFirst firstReceive
        rw [List.head?_map]
        cases (numbered (At id sp x) s.bus).head? with
        | none => rfl
        | some y =>
          simp only [Option.toList_some, Option.map_some, List.filter_cons, List.filter_nil]
          split <;> rfl
      have e2 : (keptLast (numbered (At id sp x) s.bus)).map Prod.fst =
          lastSend (accessesTo id sp x s.bus) := by
        rw [e0]
        unfold keptLast lastSend
        rw [List.getLast?_map]
        cases (numbered (At id sp x) s.bus).getLast? with
        | none => rfl
        | some y =>
          simp only [Option.toList_some, Option.map_some, List.filter_cons, List.filter_nil]
          split <;> rfl
      rw [e1, e2] at hk
      rw [← hk]
      unfold accessesTo numbered
      rw [List.filter_map, List.filter_filter, List.filter_filter]
      congr 1
      apply List.filter_congr
      intro y _
      simp only [Function.comp_apply, At]
      exact Bool.and_comm _ _

end Registers

end Verif
