import Verif.Proofs.Literals
import Verif.Props.Build
import Verif.Props.Optimistic

/-!
# C67, C68: execution constraints and optimistic literals
-/

set_option linter.unusedSectionVars false

namespace Verif

open GExpr

/-! ### The machines of the instructions -/

section
variable {p : ℕ} [Fact p.Prime] {U : Type} [CommRing U] {φ : U ≃+* ZMod p} {execBus pcBus : ℕ}

theorem foldl_max_bound {l : List ℕ} {n : ℕ} : ∀ {a : ℕ}, a ≤ n → (∀ x ∈ l, x ≤ n) → l.foldl max a ≤ n := by
  induction l with
  | nil => intro a h _; simpa using h
  | cons x t ih =>
    intro a h1 h2
    rw [List.foldl_cons]
    exact ih (max_le h1 (h2 x List.mem_cons_self)) fun y hy => h2 y (List.mem_cons_of_mem _ hy)

/-- The columns of one instruction. -/
theorem instructionMachine_columns {f : U → ZMod p} {next next' : ℕ} {i : InstrAir U} {l : List ℕ}
    {m : SymMachine (ZMod p) ℕ} (h : instructionMachine execBus pcBus f next i = .ok (next', l, m)) :
    (∃ n, 0 < n ∧ next' = next + n ∧ l = List.range' next n) ∧
    (ColumnAllocator.fromMaxPolyId m).nextPolyId = next' ∧
    m.derived = (i.machine.convert f).derived ∧
    ∀ σ, m.Chained execBus σ := by
  obtain ⟨n, r, s, pc, g0, g1, g2, g3, g4, g5, g6, g7, g8, g9⟩ := instructionMachine_ok h
  have hall : instructionMachines execBus pcBus f next [i] = .ok (next', [l], [m]) := by
    simp only [instructionMachines, h, bind, Except.bind, pure, Except.pure]
  have hle := (instructionMachines_ok hall).2.2.2.2.2 m (by simp)
  refine ⟨⟨n, g0, g1, g2⟩, ?_, g8, ?_⟩
  · have hmem : next + (n - 1) ∈ m.refs := by
      have h1 : n - 1 ∈ (i.machine.convert f).refs := by
        rw [convert_refs, g3]
        omega
      obtain ⟨e, he, hr⟩ := List.mem_flatMap.1 h1
      rw [SymMachine.refs, List.mem_flatMap]
      refine ⟨e.mapRefs (· + next), ?_, ?_⟩
      · rcases List.mem_append.1 he with he | he
        · refine List.mem_append_left _ ?_
          rw [g9]
          refine List.mem_append_left _ (List.mem_append_left _ ?_)
          exact List.mem_map.2 ⟨e, he, rfl⟩
        · refine List.mem_append_right _ ?_
          rw [g7]
          obtain ⟨b, hb, he⟩ := List.mem_flatMap.1 he
          refine List.mem_flatMap.2 ⟨_, List.mem_map.2 ⟨b, hb, rfl⟩, ?_⟩
          rcases List.mem_cons.1 he with rfl | he
          · exact List.mem_cons_self
          · exact List.mem_cons_of_mem _ (List.mem_map.2 ⟨e, he, rfl⟩)
      · rw [refs_mapRefs]
        exact List.mem_map.2 ⟨_, hr, by omega⟩
    have h1 := (le_foldl_max m.refs 0).2 _ hmem
    have h2 := foldl_max_bound (l := m.refs) (n := next' - 1) (Nat.zero_le _) fun x hx => by
      have := (hle x hx).2
      omega
    simp only [ColumnAllocator.fromMaxPolyId]
    omega
  · intro σ s' r' ⟨k, h1, h2⟩
    have : m.onBus execBus = [⟨r.id, r.mult.mapRefs (· + next), r.args.map (AlgExpr.mapRefs (· + next))⟩,
        ⟨s.id, s.mult.mapRefs (· + next), s.args.map (AlgExpr.mapRefs (· + next))⟩] := by
      unfold SymMachine.onBus
      rw [g7]
      simp only [SymMachine.mapRefs, List.filter_map]
      have : (((i.machine.convert f).bus.filter fun b => b.id = execBus)) = [r, s] := g4
      simp only [Function.comp_def]
      rw [this]
      rfl
    rw [this] at h2
    simp at h2

/-- The columns of consecutive instructions. -/
theorem instructionMachines_columns {f : U → ZMod p} : ∀ {is : List (InstrAir U)} {next next' : ℕ}
    {subs : List (List ℕ)} {ms : List (SymMachine (ZMod p) ℕ)},
    instructionMachines execBus pcBus f next is = .ok (next', subs, ms) → ms.length = is.length ∧
    (subs ≠ [] → ∃ l t, subs = l :: t ∧ l[0]? = some next) ∧
    ∀ (k : ℕ) (i : InstrAir U), is[k]? = some i → ∃ a b l m, subs[k]? = some l ∧ ms[k]? = some m ∧
      instructionMachine execBus pcBus f a i = .ok (b, l, m) ∧ b ≤ next' ∧
      ∀ l' : List ℕ, subs[k + 1]? = some l' → l'[0]? = some b
  | [], next, next', subs, ms, h => by
    cases h
    simp
  | i :: t, next, next', subs, ms, h => by
    rw [instructionMachines] at h
    cases h1 : instructionMachine execBus pcBus f next i with
    | error x => rw [h1] at h; cases h
    | ok r =>
      obtain ⟨nx, sb, mm⟩ := r
      rw [h1] at h
      simp only [bind, Except.bind] at h
      cases h2 : instructionMachines execBus pcBus f nx t with
      | error x => rw [h2] at h; cases h
      | ok r =>
        obtain ⟨nx', sbs, mms⟩ := r
        rw [h2] at h
        cases h
        obtain ⟨i1, i2, i3⟩ := instructionMachines_columns h2
        obtain ⟨⟨n, n1, n2, n3⟩, -⟩ := instructionMachine_columns h1
        refine ⟨by simp [i1], fun _ => ⟨_, _, rfl, ?_⟩, fun k j hk => ?_⟩
        · rw [n3]
          simp [n1]
        · cases k with
          | zero =>
            rw [List.getElem?_cons_zero] at hk
            cases hk
            refine ⟨next, nx, sb, mm, rfl, rfl, h1, (instructionMachines_ok h2).2.2.1, fun l' hl' => ?_⟩
            rw [List.getElem?_cons_succ] at hl'
            obtain ⟨l, t', e1, e2⟩ := i2 (by rintro rfl; simp at hl')
            rw [e1] at hl'
            cases hl'
            exact e2
          | succ k =>
            rw [List.getElem?_cons_succ] at hk
            obtain ⟨a, b, l, m, j1, j2, j3, j4, j5⟩ := i3 k j hk
            exact ⟨a, b, l, m, j1, j2, j3, j4, j5⟩

/-- The row of an instruction and its machine. -/
theorem instruction_row {is : List (InstrAir U)} {next : ℕ} {subs : List (List ℕ)}
    {ms : List (SymMachine (ZMod p) ℕ)}
    (h : instructionMachines execBus pcBus φ 0 is = .ok (next, subs, ms)) {rows : ℕ → ℕ → U}
    {σ : ℕ → ZMod p} (hσ : Agrees φ subs rows σ) {k : ℕ} {i : InstrAir U} {l : List ℕ}
    {m : SymMachine (ZMod p) ℕ} (h1 : is[k]? = some i) (h2 : subs[k]? = some l) (h3 : ms[k]? = some m) :
    (BlockRows execBus pcBus is rows → m.Holds σ) ∧
    m.messages σ = (i.machine.messages (rows k)).map (convertMessage φ) := by
  obtain ⟨a, b, l', m', k1, k2, k3, -, -⟩ := (instructionMachines_columns h).2.2 k i h1
  rw [h2] at k1
  cases k1
  rw [h3] at k2
  cases k2
  obtain ⟨mb, hb⟩ : ∃ mb, blockMachine execBus pcBus φ is = .ok (mb, ⟨subs, next⟩) := by
    unfold blockMachine
    rw [h]
    cases ms with
    | nil => simp at h3
    | cons m t => exact ⟨_, rfl⟩
  have hval := fun {e} he => row_value hb hσ h1 h2 (e := e) he
  have hloc : (fun c => σ (l.getD c 0)) = localRow σ l := rfl
  rw [hloc] at hval
  obtain ⟨g1, g2⟩ := instructionMachine_holds k3 σ
  have hargs : ∀ {b : SymBus U ℕ}, b ∈ i.machine.bus →
      (b.args.map (AlgExpr.convert φ)).map (AlgExpr.value (localRow σ l)) =
        (b.args.map (AlgExpr.value (rows k))).map φ := by
    intro b hb
    rw [List.map_map, List.map_map]
    exact List.map_congr_left fun e he => hval (args_mem_exprs hb he)
  constructor
  · rintro ⟨r1, r2, r3, -⟩
    rw [g1]
    refine ⟨?_, ?_, ?_⟩
    · intro e he
      obtain ⟨e', he', rfl⟩ := List.mem_map.1 he
      rw [hval (List.mem_append_left _ he'), r1 k i h1 e' he', map_zero]
    · intro r s hrs
      change (i.machine.convert φ).onBus execBus = _ at hrs
      rw [onBus_convert] at hrs
      obtain ⟨r0, t, hr0, e1, ht⟩ := List.map_eq_cons_iff.1 hrs
      obtain ⟨s0, t', hs0, e2, ht'⟩ := List.map_eq_cons_iff.1 ht
      rw [List.map_eq_nil_iff.1 ht'] at hs0
      subst e1
      simp only
      rw [hval (mult_mem_exprs (b := r0) (List.mem_of_mem_filter (by
        change r0 ∈ i.machine.onBus execBus
        rw [hr0]; simp))), r2 k i h1 r0 s0 (by rw [hr0, hs0]), map_neg, map_one]
    · intro b hb hid
      obtain ⟨b', hb', rfl⟩ := List.mem_map.1 hb
      simp only
      rw [hargs hb', r3 k i h1 b' (List.mem_filter.2 ⟨hb', by simpa using hid⟩)]
  · rw [g2]
    simp only [SymMachine.messages, SymMachine.convert, List.map_map]
    refine List.map_congr_left fun b hb => ?_
    simp only [Function.comp_apply, SymBus.message, convertMessage, Prod.mk.injEq, true_and]
    exact ⟨hval (mult_mem_exprs hb), hargs hb⟩

end

/-! ### Literals -/

section
variable {p : ℕ} [Fact p.Prime] {U : Type} [CommRing U] {N : ℕ} {φ : U ≃+* ZMod p}
  {execBus memoryBusId : ℕ} {c : OptimizerConfig p (Fin N)}
  {ok : RuleInput p (Fin N) → ConstraintSystem p (Fin N) → ConstraintSystem p (Fin N) → Prop}
  {is : List (InstrAir U)} {literals : List (ℕ × OptLiteral (List (ZMod p)))}

/-- C68: every literal of a column of the instruction it was found in has the value of this column in the
row of the instruction. -/
theorem C68_right (r : LiteralsRun φ execBus memoryBusId c ok is literals) (hN : N ≤ p) (bus : Bus p)
    (hc : c.Correct bus) (hid : c.memoryBusId = some memoryBusId)
    (hmem : (execBus : ZMod p) ≠ (memoryBusId : ZMod p)) (hd : ∀ i ∈ is, i.machine.derived = [])
    (rows : ℕ → ℕ → U) (hrows : BlockRows execBus c.pcLookupId is rows)
    (hacc : ∀ x ∈ asInteractions φ (rowMessages is rows), bus x)
    (mem : ℕ → Memory p) (hrun : ∀ (k : ℕ) (i : InstrAir U), is[k]? = some i →
      MemoryRun (memoryBusId : ZMod p) (asInteractions φ (i.machine.messages (rows k))) (mem k) (mem (k + 1)))
    (limb : ℕ → ℕ → ℕ) (states : List (ExecState (List (ZMod p)) ℕ))
    (hlen : states.length = is.length + 1)
    (hst : ∀ (k : ℕ) (st : ExecState (List (ZMod p)) ℕ), states[k]? = some st → StateMatches limb st (mem k))
    (hapart : ∀ m ∈ r.optimized, AccessesApart memoryBusId m.bus)
    (w : ℕ) (he : ∀ k m m' h h', c.rangeHandler.Exact bus w (r.optimize k m m' h h').step4.st.finish.system.bus)
    (hcmp : ∀ k m m' h h' l, r.subs[k]? = some l → ∀ τ : Fin N → ZMod p,
      (∀ (j : ℕ) (v : Fin N), l[j]? = some (v : ℕ) → τ v = φ (rows k j)) →
      (∀ d ∈ (r.optimize k m m' h h').step4.news, d.Computed τ) → ComparisonsRight τ ok)
    {k : ℕ} {here : List (ℕ × OptLiteral (List (ZMod p)))} (hk : r.byInstr[k]? = some here)
    {x : ℕ × OptLiteral (List (ZMod p))} (hx : x ∈ here) {l : List ℕ} (hl : r.subs[k]? = some l) {j : ℕ}
    (hj : l[j]? = some x.1) :
    x.2.read limb states = some (φ (rows k j)).val := by
  have hcol := instructionMachines_columns r.machines
  have hok := instructionMachines_ok r.machines
  have hnd : r.subs.flatten.Nodup := by
    rw [hok.2.2.2.1]
    exact List.nodup_range'
  obtain ⟨σ, hσ⟩ := exists_agrees (φ : U → ZMod p) hnd rows
  obtain ⟨hlit1, hlit2⟩ := instrLiterals_ok r.accesses
  obtain ⟨m', hm', hy⟩ := hlit2 k here hk
  obtain ⟨b, hb, y, hy1, hy2⟩ := hy x hx
  rw [Nat.zero_add] at hy1
  have hkl : k < r.subs.length := (List.getElem?_eq_some_iff.1 hl).1
  rw [hok.2.1] at hkl
  have hi : is[k]? = some is[k] := List.getElem?_eq_getElem hkl
  obtain ⟨a, b', l', m, k1, k2, k3, k4, -⟩ := hcol.2.2 k _ hi
  rw [hl] at k1
  cases k1
  obtain ⟨⟨n, n1, n2, n3⟩, c2, c3, c4⟩ := instructionMachine_columns k3
  obtain ⟨hrow1, hrow2⟩ := instruction_row r.machines hσ hi hl k2
  have hlt : ∀ id ∈ l, id < (ColumnAllocator.fromMaxPolyId m).nextPolyId := by
    intro id hid
    rw [n3, List.mem_range'_1] at hid
    rw [c2]
    omega
  have hsub : ∀ z ∈ asInteractions φ (is[k].machine.messages (rows k)), bus z := by
    intro z hz
    refine hacc z ?_
    rw [asInteractions] at hz ⊢
    obtain ⟨z', hz', rfl⟩ := List.mem_map.1 hz
    refine List.mem_map.2 ⟨z', List.mem_flatMap.2 ⟨(is[k], k), ?_, hz'⟩, rfl⟩
    rw [List.mem_zipIdx_iff_getElem?]
    exact hi
  obtain ⟨τ, t1, t2⟩ := (r.optimize k m m' k2 hm').complete hN bus hc
    (by rw [c3]; simp [SymMachine.convert, hd _ (List.mem_of_getElem? hi)])
    (fun id h => by rw [hid] at h; cases h; exact hmem) w (he k m m' k2 hm') (mem k) (mem (k + 1)) σ
    (hrow1 hrows) (c4 σ)
    (by
      intro z hz
      rw [hrow2] at hz
      refine hsub _ ?_
      rw [asInteractions_eq]
      exact List.mem_map.2 ⟨z, hz, rfl⟩)
    (by
      intro id h
      rw [hid] at h
      cases h
      rw [hrow2, ← asInteractions_eq]
      exact hrun k _ hi)
    (fun τ h1 h2 => hcmp k m m' k2 hm' l hl τ (fun j v hv => by
      rw [h1 v (hlt _ (List.mem_of_getElem? hv))]
      exact hσ k l j _ hl hv) h2)
  have hs1 : states[k]? = some (states[k]'(by omega)) := List.getElem?_eq_getElem _
  have hs2 : states[k + 1]? = some (states[k + 1]'(by omega)) := List.getElem?_eq_getElem _
  have := literal_right hb hy1 hy2 (hapart m' (List.mem_of_getElem? hm')) (t2 _ hid) hs1 hs2
    (hst _ _ hs1) (hst _ _ hs2)
  rw [LiteralRight] at this
  rw [this, t1 _ (hlt _ (List.mem_of_getElem? hj)), hσ k l j _ hl hj]

/-- The last literal of a key is one of the literals. -/
theorem literalOf_mem {x : ℕ} {v : OptLiteral (List (ZMod p))} (h : literalOf literals x = some v) :
    (x, v) ∈ literals := by
  rw [literalOf] at h
  exact List.mem_reverse.1 (pcMap_lookup_mem h)

/-- C68: if the limbs found are columns of the instruction they are found in, then the literal of every
column, if there is one, has the value of the column. -/
theorem C68_literals (r : LiteralsRun φ execBus memoryBusId c ok is literals) (hN : N ≤ p) (bus : Bus p)
    (hc : c.Correct bus) (hid : c.memoryBusId = some memoryBusId)
    (hmem : (execBus : ZMod p) ≠ (memoryBusId : ZMod p)) (hd : ∀ i ∈ is, i.machine.derived = [])
    (rows : ℕ → ℕ → U) (hrows : BlockRows execBus c.pcLookupId is rows)
    (hacc : ∀ x ∈ asInteractions φ (rowMessages is rows), bus x)
    (mem : ℕ → Memory p) (hrun : ∀ (k : ℕ) (i : InstrAir U), is[k]? = some i →
      MemoryRun (memoryBusId : ZMod p) (asInteractions φ (i.machine.messages (rows k))) (mem k) (mem (k + 1)))
    (limb : ℕ → ℕ → ℕ) (states : List (ExecState (List (ZMod p)) ℕ))
    (hlen : states.length = is.length + 1)
    (hst : ∀ (k : ℕ) (st : ExecState (List (ZMod p)) ℕ), states[k]? = some st → StateMatches limb st (mem k))
    (hapart : ∀ m ∈ r.optimized, AccessesApart memoryBusId m.bus)
    (w : ℕ) (he : ∀ k m m' h h', c.rangeHandler.Exact bus w (r.optimize k m m' h h').step4.st.finish.system.bus)
    (hcmp : ∀ k m m' h h' l, r.subs[k]? = some l → ∀ τ : Fin N → ZMod p,
      (∀ (j : ℕ) (v : Fin N), l[j]? = some (v : ℕ) → τ v = φ (rows k j)) →
      (∀ d ∈ (r.optimize k m m' h h').step4.news, d.Computed τ) → ComparisonsRight τ ok)
    (hown : ∀ (k : ℕ) here l, r.byInstr[k]? = some here → r.subs[k]? = some l → ∀ x ∈ here, x.1 ∈ l)
    {k : ℕ} {l : List ℕ} (hl : r.subs[k]? = some l) {j x : ℕ} (hj : l[j]? = some x)
    {v : OptLiteral (List (ZMod p))} (hv : literalOf literals x = some v) :
    v.read limb states = some (φ (rows k j)).val := by
  have h1 := literalOf_mem hv
  rw [r.result] at h1
  obtain ⟨here, hh, hx⟩ := List.mem_flatten.1 h1
  obtain ⟨k', hk'⟩ := List.mem_iff_getElem?.1 hh
  have hok := instructionMachines_ok r.machines
  have hcol := instructionMachines_columns r.machines
  have hnd : r.subs.flatten.Nodup := by
    rw [hok.2.2.2.1]
    exact List.nodup_range'
  have hlt : k' < r.subs.length := by
    have := (List.getElem?_eq_some_iff.1 hk').1
    rw [(instrLiterals_ok r.accesses).1, r.length, hcol.1] at this
    rw [hok.2.1]
    exact this
  have hl' : r.subs[k']? = some r.subs[k'] := List.getElem?_eq_getElem hlt
  have hmem' := hown k' here _ hk' hl' _ hx
  have hkk : k' = k := by
    by_contra hne
    have hpw := List.pairwise_iff_getElem.1 (List.nodup_flatten.1 hnd).2
    obtain ⟨b1, e1⟩ := List.getElem?_eq_some_iff.1 hl
    rcases lt_or_gt_of_ne hne with hlt' | hlt'
    · exact hpw _ _ hlt b1 hlt' hmem' (by rw [e1]; exact List.mem_of_getElem? hj)
    · exact hpw _ _ b1 hlt hlt' (by rw [e1]; exact List.mem_of_getElem? hj) hmem'
  subst hkk
  exact C68_right r hN bus hc hid hmem hd rows hrows hacc mem hrun limb states hlen hst hapart w he hcmp hk'
    (x := (x, v)) hx hl hj

/-- C68: the id of the first column that the optimizer introduces for an instruction other than the last
one is that of the first column of the next instruction. So it is a known id, and the limb is not skipped. -/
theorem C68_collision (r : LiteralsRun φ execBus memoryBusId c ok is literals) {k : ℕ}
    {m : SymMachine (ZMod p) ℕ} {l : List ℕ} (hm : r.ms[k]? = some m) (hl : r.subs[k + 1]? = some l) :
    l[0]? = some (ColumnAllocator.fromMaxPolyId m).issueNextPolyId.1 ∧
    (⟨r.subs, r.next⟩ : ColumnAllocator).isKnownId
      (ColumnAllocator.fromMaxPolyId m).issueNextPolyId.1 = true := by
  have hcol := instructionMachines_columns r.machines
  have hok := instructionMachines_ok r.machines
  have hlt : k < is.length := by
    have := (List.getElem?_eq_some_iff.1 hm).1
    rw [hcol.1] at this
    exact this
  obtain ⟨a, b, l', m', k1, k2, k3, k4, k5⟩ := hcol.2.2 k _ (List.getElem?_eq_getElem hlt)
  rw [hm] at k2
  cases k2
  have hb := (instructionMachine_columns k3).2.1
  have h0 : l[0]? = some (ColumnAllocator.fromMaxPolyId m).issueNextPolyId.1 := by
    rw [k5 l hl, ← hb]
    rfl
  refine ⟨h0, ?_⟩
  have : (ColumnAllocator.fromMaxPolyId m).issueNextPolyId.1 ∈ r.subs.flatten :=
    List.mem_flatten.2 ⟨l, List.mem_of_getElem? hl, List.mem_of_getElem? h0⟩
  rw [hok.2.2.2.1, List.mem_range'_1] at this
  simp only [ColumnAllocator.isKnownId, decide_eq_true_eq]
  omega

theorem reduceOption_mapM {α β ε : Type} {f : α → Except ε (Option β)} : ∀ {l : List α}
    {r : List (Option β)}, l.mapM f = .ok r → ∀ {x : β} {a : α}, a ∈ l → f a = .ok (some x) →
      x ∈ r.reduceOption
  | [], r, h, x, a, ha, hx => by cases ha
  | b :: l, r, h, x, a, ha, hx => by
    rw [List.mapM_cons] at h
    simp only [Except.bind_ok_iff] at h
    obtain ⟨y, h1, t, h2, h3⟩ := h
    cases h3
    rw [List.reduceOption_mem_iff]
    rcases List.mem_cons.1 ha with rfl | ha
    · rw [hx] at h1
      cases h1
      exact List.mem_cons_self
    · exact List.mem_cons_of_mem _ (List.reduceOption_mem_iff.1 (reduceOption_mapM h2 ha hx))

theorem concreteAccess_iff {idx : ℕ} {b : SymBus (ZMod p) ℕ} {m : MemInt p ℕ} {pointer : ZMod p}
    {limbs : List ℕ} (hm : memConversion memoryBusId (symBusToBus b) = .ok (.memory m))
    (hp : m.pointer = const pointer) (hl : m.data = limbs.map var) :
    concreteAccess memoryBusId idx b = .ok (some ⟨match m.op with
        | .getPrevious => idx
        | .setNew => idx + 1, [m.space, pointer], limbs⟩) := by
  have h1 : m.pointer.tryToKnown = some pointer := by rw [hp]; rfl
  have h2 : m.data.mapM tryToSimpleUnknown = some limbs := by
    rw [hl]
    clear hl hp h1
    induction limbs with
    | nil => rfl
    | cons x t ih => simp [List.mapM_cons, ih, tryToSimpleUnknown_eq_some.2 rfl]
  unfold concreteAccess
  rw [hm]
  simp only [bind, Except.bind, h1, h2]
  rfl

theorem mem_instrLiterals {a : ColumnAllocator} : ∀ {ms : List (SymMachine (ZMod p) ℕ)} {idx : ℕ}
    {r : List (List (ℕ × OptLiteral (List (ZMod p))))}, instrLiterals memoryBusId a idx ms = .ok r →
    ∀ (k : ℕ) (m : SymMachine (ZMod p) ℕ), ms[k]? = some m → ∃ l, r[k]? = some l ∧ ∀ b ∈ m.bus, ∀ x,
      concreteAccess memoryBusId (idx + k) b = .ok (some x) → ∀ y ∈ limbMapping a x, y ∈ l
  | [], idx, r, h, k, m, hk => by simp at hk
  | m' :: t, idx, r, h, k, m, hk => by
    rw [instrLiterals] at h
    simp only [Except.bind_ok_iff] at h
    obtain ⟨accesses, h1, rest, h2, h3⟩ := h
    cases h3
    cases k with
    | zero =>
      cases hk
      refine ⟨_, rfl, fun b hb x hx y hy => ?_⟩
      exact List.mem_flatMap.2 ⟨x, reduceOption_mapM h1 hb hx, hy⟩
    | succ k =>
      obtain ⟨l, h4, h5⟩ := mem_instrLiterals h2 k m (by simpa using hk)
      refine ⟨l, by simpa using h4, fun b hb x hx => h5 b hb x ?_⟩
      rw [show idx + 1 + k = idx + (k + 1) by omega]
      exact hx

/-- C68: the literals are exactly these: limb `i` of a memory access of the optimized instruction `k` with
a constant address whose limbs are all columns, in the state before the instruction for a get and after it
for a set. -/
theorem C68_found (r : LiteralsRun φ execBus memoryBusId c ok is literals)
    {y : ℕ × OptLiteral (List (ZMod p))} :
    y ∈ literals ↔ ∃ (k i : ℕ) (m' : SymMachine (ZMod p) ℕ) (b : SymBus (ZMod p) ℕ) (m : MemInt p ℕ)
      (pointer : ZMod p) (limbs : List ℕ), r.optimized[k]? = some m' ∧ b ∈ m'.bus ∧
      memConversion memoryBusId (symBusToBus b) = .ok (.memory m) ∧ m.pointer = const pointer ∧
      m.data = limbs.map var ∧ limbs[i]? = some y.1 ∧ y.1 < r.next ∧
      y.2 = ⟨if m.op = .getPrevious then k else k + 1, .registerLimb [m.space, pointer] i⟩ := by
  constructor
  · intro h
    rw [r.result] at h
    obtain ⟨here, hh, hy⟩ := List.mem_flatten.1 h
    obtain ⟨k, hk⟩ := List.mem_iff_getElem?.1 hh
    obtain ⟨m', hm', hall⟩ := (instrLiterals_ok r.accesses).2 k here hk
    obtain ⟨b, hb, x, hx, hyx⟩ := hall y hy
    rw [Nat.zero_add] at hx
    obtain ⟨m, pointer, h1, h2, h3, h4, h5, h6⟩ := concreteAccess_ok hx
    obtain ⟨i, i1, i2, i3⟩ := mem_limbMapping.1 hyx
    refine ⟨k, i, m', b, m, pointer, x.limbs, hm', hb, h1, h2, h4, i1, ?_, ?_⟩
    · simpa [ColumnAllocator.isKnownId] using i2
    · rw [i3, h3]
      cases hop : m.op with
      | getPrevious => simp [h5 hop]
      | setNew => simp [h6 hop]
  · rintro ⟨k, i, m', b, m, pointer, limbs, h1, h2, h3, h4, h5, h6, h7, h8⟩
    obtain ⟨l, hl, hall⟩ := mem_instrLiterals r.accesses k m' h1
    rw [r.result]
    refine List.mem_flatten.2 ⟨l, List.mem_of_getElem? hl, ?_⟩
    refine hall b h2 _ (concreteAccess_iff (idx := 0 + k) h3 h4 h5) y ?_
    refine mem_limbMapping.2 ⟨i, h6, by simpa [ColumnAllocator.isKnownId] using h7, ?_⟩
    rw [h8]
    cases hop : m.op <;> simp

/-- C68: a column has a literal exactly if one was found for it. -/
theorem C68_has {x : ℕ} : (literalOf literals x).isSome ↔ ∃ v, (x, v) ∈ literals := by
  constructor
  · intro h
    obtain ⟨v, hv⟩ := Option.isSome_iff_exists.1 h
    exact ⟨v, literalOf_mem hv⟩
  · rintro ⟨v, hv⟩
    by_contra hn
    rw [Option.not_isSome_iff_eq_none, literalOf, List.lookup_eq_none_iff] at hn
    simpa using hn (x, v) (List.mem_reverse.2 hv)

end

/-! ### Execution constraints -/

section
variable {A : Type} [DecidableEq A] {p : ℕ} [Fact p.Prime] {literals : ℕ → Option (OptLiteral A)} {cs : List (EqConstraint ℕ)}

/-- C67: the generation of execution constraints panics exactly if a column has no literal or a number has
more than 32 bits. -/
theorem C67_panic : (∃ ocs, executionConstraints p literals cs = .ok ocs) ↔
    ∀ k ∈ cs, (literals k.left).isSome ∧ (∀ r, k.right = .inl r → (literals r).isSome) ∧
      ∀ n, k.right = .inr n → (n : ZMod p).val < 2 ^ 32 :=
  executionConstraints_defined

/-- C67: if the literals are right, the evaluator accepts a run exactly if the equality constraints hold. -/
theorem C67_accepts {limb : ℕ → ℕ → ℕ} {states : List (ExecState A ℕ)} (hne : states ≠ [])
    {σ : ℕ → ZMod p} (hr : ∀ r l, literals r = some l → l.read limb states = some (σ r).val)
    {ocs : List (OptConstraint A ℕ)} (h : executionConstraints p literals cs = .ok ocs) :
    (∃ ev, runEvaluator limb (.fromConstraints ocs) states .new = .ok (some ev)) ↔
      ∀ k ∈ cs, k.Holds σ := by
  have : NeZero p := ⟨(Fact.out : p.Prime).ne_zero⟩
  obtain ⟨h1, h2⟩ := executionConstraints_hold hr h
  rw [C38_complete limb ocs states hne h2, h1]

theorem othersConstraints_mem {R : Type} {refs : BlockCell → Option R} {first : R} :
    ∀ {l : List BlockCell} {cs : List (EqConstraint R)}, othersConstraints refs first l = .ok cs →
    ∀ k ∈ cs, ∃ y ∈ l, ∃ r, refs y = some r ∧ k = ⟨first, .inl r⟩
  | [], cs, h, k, hk => by cases h; cases hk
  | cell :: t, cs, h, k, hk => by
    rw [othersConstraints] at h
    simp only [Except.bind_ok_iff] at h
    obtain ⟨other, h1, rest, h2, h3⟩ := h
    cases h3
    rcases List.mem_cons.1 hk with rfl | hk
    · exact ⟨cell, List.mem_cons_self, other, getReference_from h1, rfl⟩
    · obtain ⟨y, hy, h⟩ := othersConstraints_mem h2 k hk
      exact ⟨y, List.mem_cons_of_mem _ hy, h⟩

theorem equivalenceConstraints_mem {R : Type} {refs : BlockCell → Option R} :
    ∀ {l : List (List BlockCell)} {cs : List (EqConstraint R)}, equivalenceConstraints refs l = .ok cs →
    ∀ k ∈ cs, ∃ cls ∈ l, ∃ x t y r, cls = x :: t ∧ y ∈ t ∧ refs x = some k.left ∧ refs y = some r ∧
      k.right = .inl r
  | [], cs, h, k, hk => by cases h; cases hk
  | [] :: t, cs, h, k, hk => by cases h
  | (first :: others) :: t, cs, h, k, hk => by
    rw [equivalenceConstraints] at h
    simp only [Except.bind_ok_iff] at h
    obtain ⟨r, h1, here, h2, rest, h3, h4⟩ := h
    cases h4
    rcases List.mem_append.1 hk with hk | hk
    · obtain ⟨y, hy, r', hr', rfl⟩ := othersConstraints_mem h2 k hk
      exact ⟨_, List.mem_cons_self, first, others, y, r', rfl, hy, getReference_from h1, hr', rfl⟩
    · obtain ⟨cls, hc, h⟩ := equivalenceConstraints_mem h3 k hk
      exact ⟨cls, List.mem_cons_of_mem _ hc, h⟩

/-- Where the generated constraints come from. -/
theorem generate_cells {R : Type} {refs : BlockCell → Option R} {b : BlockEmpiricalConstraints}
    {pcs : List ℕ} {cs : List (EqConstraint R)} (hw : b.equivalenceClasses.WF)
    (hr : ∀ x ∈ b.columnRangesByPc, MapKeys x.2) (h : b.Generate refs pcs (.ok cs)) :
    ∀ k ∈ cs, (∃ i pc c v, pcs[i]? = some pc ∧ b.range (pcU32 pc) c = some (v, v) ∧
        refs (i, c) = some k.left ∧ k.right = .inr v) ∨
      ∃ x y r, x ≠ y ∧ b.equivalenceClasses.Same x y ∧ refs x = some k.left ∧ refs y = some r ∧
        k.right = .inl r := by
  obtain ⟨classes, hcl, h⟩ := h
  have h := h.symm
  simp only [Except.bind_ok_iff] at h
  obtain ⟨rs, h1, cl, h2, es, h3, h4⟩ := h
  cases h4
  intro k hk
  rcases List.mem_append.1 hk with hk | hk
  · left
    obtain ⟨p1, p2⟩ := rangeConstraints_spec refs b.columnRangesByPc pcs 0
    simp only [Nat.zero_add] at p1 p2
    by_cases hp : ∃ i pc l c v, pcs[i]? = some pc ∧ b.columnRangesByPc.lookup (pcU32 pc) = some l ∧
        (c, (v, v)) ∈ l ∧ refs (i, c) = none
    · rw [p1 hp] at h1
      cases h1
    · obtain ⟨cs', e, hcs⟩ := p2 (by
        intro i pc l c v h4 h5 h6
        by_contra hn
        exact hp ⟨i, pc, l, c, v, h4, h5, h6, by simpa using hn⟩)
      rw [h1] at e
      cases e
      obtain ⟨i, pc, l, c, v, r, k1, k2, k3, k4, rfl⟩ := (hcs k).1 hk
      refine ⟨i, pc, c, v, k1, ?_, k4, rfl⟩
      rw [BlockEmpiricalConstraints.range, k2, Option.bind_some]
      exact mem_lookup (hr _ (pcMap_lookup_mem k2)) k3
  · right
    obtain ⟨cl', e, ⟨-, hn⟩, -, hs⟩ := toClasses_ok hw hcl
    rw [h2] at e
    cases e
    obtain ⟨cls, hc, x, t, y, r, rfl, hy, hx, hyr, hk⟩ := equivalenceConstraints_mem h3 k hk
    have hnd := (List.nodup_flatten.1 hn).1 _ hc
    refine ⟨x, y, r, ?_, (hs x y).1 (.inr ⟨_, hc, List.mem_cons_self, List.mem_cons_of_mem _ hy⟩), hx, hyr, hk⟩
    rintro rfl
    exact (List.nodup_cons.1 hnd).1 hy

/-- C67: if the empirical constraints are restricted to the columns with literals, and the recorded values
and program counters have 32 bits, then the execution constraints can be generated. If the literals are
right for the rows of the instructions, then the evaluator accepts a run exactly if the rows satisfy the
empirical constraints. -/
theorem C67_restricted {U I : Type} [CommRing U] {φ : U ≃+* ZMod p} {e : EmpiricalConstraints} (hwf : e.WF)
    {step : ℕ} {blocks : List (BasicBlock I)} (hcells : ∀ b ∈ blocks, CellsInBlock e b)
    {keep : BlockCell → Bool} {m : SymMachine (ZMod p) ℕ} {subs : List (List ℕ)}
    (hs : subs.flatten.Nodup) (r : EmpiricalRun e step blocks (some keep) m subs cs)
    (hkeep : ∀ cell x, r.refs.lookup cell = some x → (keep cell = true ↔ (literals x).isSome))
    (hpc : ∀ pc ∈ superBlockPcs step blocks, pc < 2 ^ 32)
    (hval : ∀ pc col v, e.range pc col = some (v, v) → v < 2 ^ 32) :
    ∃ ocs, executionConstraints p literals cs = .ok ocs ∧
      ∀ (limb : ℕ → ℕ → ℕ) (states : List (ExecState A ℕ)) (rows : ℕ → ℕ → U), states ≠ [] →
        (∀ x v, literals x = some v → ∃ (k : ℕ) (l : List ℕ) (j : ℕ), subs[k]? = some l ∧ l[j]? = some x ∧
          v.read limb states = some (φ (rows k j)).val) →
        ((∃ ev, runEvaluator limb (.fromConstraints ocs) states .new = .ok (some ev)) ↔
          EmpiricallyTrue e step blocks keep rows) := by
  have : NeZero p := ⟨(Fact.out : p.Prime).ne_zero⟩
  obtain ⟨w1, w2, w3, w4⟩ := r.kept_spec hwf hcells
  simp only [Option.getD_some] at w3 w4
  have hcs := generate_cells w1 w2 r.generate
  obtain ⟨ocs, hocs⟩ := (C67_panic (p := p) (literals := literals) (cs := cs)).2 (by
    intro k hk
    rcases hcs k hk with ⟨i, pc, c, v, h1, h2, h3, h4⟩ | ⟨x, y, q, h1, h2, h3, h4, h5⟩
    · obtain ⟨g1, g2⟩ := (w3 i pc c v h1).1 h2
      refine ⟨(hkeep _ _ h3).1 (g2 i ?_), fun q hq => (by rw [h4] at hq; cases hq), fun n hn => ?_⟩
      · rw [h1, pcU32, Nat.mod_eq_of_lt (hpc pc (List.mem_of_getElem? h1))]
      · rw [h4] at hn
        cases hn
        refine lt_of_le_of_lt ?_ (hval _ _ _ g1)
        rw [ZMod.val_natCast]
        exact Nat.mod_le _ _
    · obtain ⟨-, g2, g3⟩ := ((w4 x y).1 h2).resolve_left h1
      refine ⟨(hkeep _ _ h3).1 g2, fun q' hq => ?_, fun n hn => (by rw [h5] at hn; cases hn)⟩
      rw [h5] at hq
      cases hq
      exact (hkeep _ _ h4).1 g3)
  refine ⟨ocs, hocs, fun limb states rows hne hr => ?_⟩
  obtain ⟨σ, hσ⟩ := exists_agrees (φ : U → ZMod p) hs rows
  have hright : ∀ x v, literals x = some v → v.read limb states = some (σ x).val := by
    intro x v hx
    obtain ⟨k, l, j, h1, h2, h3⟩ := hr x v hx
    rw [h3, hσ k l j x h1 h2]
  rw [C67_accepts hne hright hocs]
  exact empirical_iff hwf hcells hs r hσ

end

/-! ### A concrete case

Two instructions that replace the contents of register 7, each with the old value in column 2 and the new
value in column 3. The timestamps are in columns 4 and 5. -/

attribute [local instance] fact_babyBear

def litAir (pc : ℕ) : InstrAir (ZMod 2013265921) where
  machine := {
    constraints := []
    bus := [⟨0, .minus (.reference 1), [.reference 0]⟩,
      ⟨0, .reference 1, [.binary (.reference 0) .add (.number 4)]⟩,
      ⟨9, .reference 1, [.reference 0]⟩,
      ⟨1, .minus (.reference 1), [.number 1, .number 7, .reference 2, .reference 4]⟩,
      ⟨1, .reference 1, [.number 1, .number 7, .reference 3, .reference 5]⟩]
    derived := [] }
  pcLookupRow := [(pc : ZMod 2013265921)]

def litInstrs : List (InstrAir (ZMod 2013265921)) := [litAir 0, litAir 4]

/-- The literals: the new value of the first instruction and the old value of the second one are the
same limb of the state between them. -/
def litLiterals : List (ℕ × OptLiteral (List (ZMod 2013265921))) :=
  [(2, ⟨0, .registerLimb [1, 7] 0⟩), (3, ⟨1, .registerLimb [1, 7] 0⟩),
    (8, ⟨1, .registerLimb [1, 7] 0⟩), (9, ⟨2, .registerLimb [1, 7] 0⟩)]

/-- The optimizer on the machine of one instruction. -/
def litOptimize (m : SymMachine (ZMod 2013265921) ℕ) : Option (SymMachine (ZMod 2013265921) ℕ ×
    ConstraintSystem 2013265921 (Fin 12) × SymMachine (ZMod 2013265921) (Fin 12)) := do
  let m2 ← (optimizeExecBus m 0).toOption
  let s4 ← (pipelineAll (machineToSystem (m2.renumber (Fin.ofNat 12)))).toOption
  let m5 ← (systemToMachine s4).toOption
  pure (m2, s4, m5)

/-- A test for accesses that can be told apart. -/
def apartCheck (memoryBusId : ℕ) (bs : List (SymBus (ZMod 2013265921) ℕ)) : Bool :=
  (bs.all fun b => match memConversion memoryBusId (symBusToBus b) with
    | .ok .notMemory => true
    | .ok (.memory _) => true
    | _ => false) &&
  decide (bs.Pairwise fun b b' => (match memConversion memoryBusId (symBusToBus b),
      memConversion memoryBusId (symBusToBus b') with
    | .ok (.memory m), .ok (.memory m') => m.op != m'.op || m.space != m'.space
    | _, _ => true) = true)

theorem apart_of_check {memoryBusId : ℕ} {bs : List (SymBus (ZMod 2013265921) ℕ)}
    (h : apartCheck memoryBusId bs = true) : AccessesApart memoryBusId bs := by
  rw [apartCheck, Bool.and_eq_true, List.all_eq_true, decide_eq_true_eq] at h
  obtain ⟨h1, h2⟩ := h
  refine ⟨fun b hb => ?_, h2.imp fun {b b'} h m m' hm hm' hop => .inl ?_⟩
  · have := h1 b hb
    split at this
    · exact .inl ‹_›
    · exact .inr ⟨_, ‹_›⟩
    · cases this
  · rw [hm, hm'] at h
    simpa [hop] using h

/-- What is checked of the optimized machine of an instruction. -/
def litCheck (x : SymMachine (ZMod 2013265921) ℕ ×
    ConstraintSystem 2013265921 (Fin 12) × SymMachine (ZMod 2013265921) (Fin 12)) : Prop :=
  (x.1.renumber (Fin.ofNat 12)).renumber Fin.val = x.1 ∧ x.2.1.algebraic = [] ∧
  (∀ b ∈ x.2.1.bus, (∀ e ∈ b.fields, e.degree ≤ 3) ∧ b.busId ≠ const 9) ∧
  apartCheck 1 (x.2.2.renumber Fin.val).bus = true

instance : DecidablePred litCheck := fun _ => by unfold litCheck; infer_instance

theorem lit_optimize {m : SymMachine (ZMod 2013265921) ℕ} {x : SymMachine (ZMod 2013265921) ℕ ×
    ConstraintSystem 2013265921 (Fin 12) × SymMachine (ZMod 2013265921) (Fin 12)}
    (h : litOptimize m = some x) (hc : litCheck x) :
    ∃ r : MachineOptimizeRun 0 (pipelineConfig 12) (fun _ _ _ => False) m (x.2.2.renumber Fin.val),
      (pipelineConfig 12).rangeHandler.Exact pipelineBus 0 r.step4.st.finish.system.bus := by
  unfold litOptimize at h
  simp only [bind, Option.bind_eq_some_iff] at h
  obtain ⟨m2, h2, s4, h4, m5, h5, hx⟩ := h
  cases hx
  obtain ⟨c1, c2, c3, -⟩ := hc
  simp only at c1 c2 c3
  obtain ⟨run, -, k2, k3⟩ := pipeline_run (ok_of_toOption h4) ⟨by rw [c2]; simp, c3⟩
  exact ⟨{
    m2 := m2
    step2 := ok_of_toOption h2
    m3 := _
    step3 := c1
    s4 := s4
    step4 := run
    issued := by rw [k2]; exact .nil
    issuedAfter := by rw [k2]; simp
    issuedFor := by rw [k2]; simp
    m5 := m5
    step5 := ok_of_toOption h5
    result := rfl }, k3⟩

/-- All steps. -/
def litAll : Option ((ℕ × List (List ℕ) × List (SymMachine (ZMod 2013265921) ℕ)) ×
    List (SymMachine (ZMod 2013265921) ℕ ×
      ConstraintSystem 2013265921 (Fin 12) × SymMachine (ZMod 2013265921) (Fin 12)) ×
    List (List (ℕ × OptLiteral (List (ZMod 2013265921))))) := do
  let r ← (instructionMachines 0 9 (RingEquiv.refl (ZMod 2013265921)) 0 litInstrs).toOption
  let opt ← r.2.2.mapM litOptimize
  let lits ← (instrLiterals 1 ⟨r.2.1, r.1⟩ 0 (opt.map fun x => x.2.2.renumber Fin.val)).toOption
  pure (r, opt, lits)

theorem lit_result : ∃ r opt lits, litAll = some (r, opt, lits) ∧
    r.2.1 = [[0, 1, 2, 3, 4, 5], [6, 7, 8, 9, 10, 11]] ∧ (∀ x ∈ opt, litCheck x) ∧
    lits = [litLiterals.take 2, litLiterals.drop 2] := by
  have h : (match litAll with
      | some (r, opt, lits) => decide (r.2.1 = [[0, 1, 2, 3, 4, 5], [6, 7, 8, 9, 10, 11]] ∧
          (∀ x ∈ opt, litCheck x) ∧ lits = [litLiterals.take 2, litLiterals.drop 2])
      | none => false) = true := by decide +kernel
  cases hb : litAll with
  | none => rw [hb] at h; cases h
  | some x =>
    obtain ⟨r, opt, lits⟩ := x
    rw [hb] at h
    exact ⟨r, opt, lits, rfl, of_decide_eq_true h⟩

theorem lit_run : ∃ r : LiteralsRun (RingEquiv.refl (ZMod 2013265921)) 0 1 (pipelineConfig 12)
    (fun _ _ _ => False) litInstrs litLiterals,
    r.subs = [[0, 1, 2, 3, 4, 5], [6, 7, 8, 9, 10, 11]] ∧
    r.byInstr = [litLiterals.take 2, litLiterals.drop 2] ∧
    (∀ m ∈ r.optimized, AccessesApart 1 m.bus) ∧
    ∀ k m m' h h', (pipelineConfig 12).rangeHandler.Exact pipelineBus 0
      (r.optimize k m m' h h').step4.st.finish.system.bus := by
  obtain ⟨⟨next, subs, ms⟩, opt, lits, hall, c1, c2, c3⟩ := lit_result
  unfold litAll at hall
  simp only [bind, Option.bind_eq_some_iff] at hall
  obtain ⟨r, h1, opt', h2, lits', h3, hx⟩ := hall
  cases hx
  simp only at c1 h1 h2 h3
  have hget : ∀ (k : ℕ) (m : SymMachine (ZMod 2013265921) ℕ), ms[k]? = some m → ∃ x, opt[k]? = some x ∧
      litOptimize m = some x := by
    clear h1 h3 c1 c2 c3
    induction ms generalizing opt with
    | nil => intro k m hk; simp at hk
    | cons m0 t ih =>
      rw [List.mapM_cons] at h2
      simp only [bind, Option.bind_eq_some_iff] at h2
      obtain ⟨x, hx, xs, hxs, hp⟩ := h2
      cases hp
      intro k m hk
      cases k with
      | zero => cases hk; exact ⟨x, rfl, hx⟩
      | succ k => exact ih xs hxs k m (by simpa using hk)
  have hlen : opt.length = ms.length := by
    clear h1 h3 c1 c2 c3 hget
    induction ms generalizing opt with
    | nil => cases h2; rfl
    | cons m0 t ih =>
      rw [List.mapM_cons] at h2
      simp only [bind, Option.bind_eq_some_iff] at h2
      obtain ⟨x, hx, xs, hxs, hp⟩ := h2
      cases hp
      simp [ih xs hxs]
  have H : ∀ (k : ℕ) (m m' : SymMachine (ZMod 2013265921) ℕ), ms[k]? = some m →
      (opt.map fun x => x.2.2.renumber Fin.val)[k]? = some m' →
      ∃ r : MachineOptimizeRun 0 (pipelineConfig 12) (fun _ _ _ => False) m m',
        (pipelineConfig 12).rangeHandler.Exact pipelineBus 0 r.step4.st.finish.system.bus := by
    intro k m m' hm hm'
    obtain ⟨x, hx, ho⟩ := hget k m hm
    rw [List.getElem?_map, hx] at hm'
    cases hm'
    exact lit_optimize ho (c2 x (List.mem_of_getElem? hx))
  refine ⟨{
    next := next
    subs := subs
    ms := ms
    machines := ok_of_toOption h1
    optimized := opt.map fun x => x.2.2.renumber Fin.val
    length := by rw [List.length_map, hlen]
    optimize := fun k m m' h h' => (H k m m' h h').choose
    byInstr := lits
    accesses := ok_of_toOption h3
    result := by rw [c3]; rfl }, c1, c3, ?_, fun k m m' h h' => (H k m m' h h').choose_spec⟩
  intro m hm
  obtain ⟨x, hx, rfl⟩ := List.mem_map.1 hm
  exact apart_of_check (c2 x hx).2.2.2

/-- An execution: register 7 has the values 5, 6 and 9. -/
def litRows : ℕ → ℕ → ZMod 2013265921 := fun k c =>
  ((([[0, 1, 5, 6, 10, 20], [4, 1, 6, 9, 20, 30]] : List (List (ZMod 2013265921))).getD k []).getD c 0)

def litMem (k : ℕ) : Memory 2013265921 :=
  Function.update (fun _ => some ([], 0)) (1, 7)
    (some ([([5, 6, 9] : List (ZMod 2013265921)).getD k 0], ([10, 20, 30] : List (ZMod 2013265921)).getD k 0))

def litStates : List (ExecState (List (ZMod 2013265921)) ℕ) :=
  [⟨0, fun a => if a = [1, 7] then 5 else 0, 0⟩, ⟨4, fun a => if a = [1, 7] then 6 else 0, 1⟩,
    ⟨8, fun a => if a = [1, 7] then 9 else 0, 2⟩]

theorem lit_blockRows : BlockRows 0 9 litInstrs litRows := by
  refine ⟨?_, ?_, ?_, ?_⟩
  · intro k i hk
    rcases k with _ | _ | k
    · cases hk; exact fun e he => nomatch he
    · cases hk; exact fun e he => nomatch he
    · simp [litInstrs] at hk
  · intro k i hk r s hrs
    rcases k with _ | _ | k
    · cases hk; cases hrs; decide +kernel
    · cases hk; cases hrs; decide +kernel
    · simp [litInstrs] at hk
  · intro k i hk
    rcases k with _ | _ | k
    · cases hk; decide +kernel
    · cases hk; decide +kernel
    · simp [litInstrs] at hk
  · intro k i j hk hj r s r' s' h1 h2
    rcases k with _ | k
    · cases hk; cases hj; cases h1; cases h2; decide +kernel
    · simp [litInstrs] at hj

theorem lit_memoryRun (k : ℕ) (i : InstrAir (ZMod 2013265921)) (hk : litInstrs[k]? = some i) :
    MemoryRun (p := 2013265921) ((1 : ℕ) : ZMod 2013265921) (asInteractions (RingEquiv.refl (ZMod 2013265921))
      (i.machine.messages (litRows k))) (litMem k) (litMem (k + 1)) := by
  have step : ∀ (a b t u : ZMod 2013265921),
      MemoryRun (p := 2013265921) 1 [⟨1, -1, 1 :: 7 :: ([a] ++ [t])⟩, ⟨1, 1, 1 :: 7 :: ([b] ++ [u])⟩]
        (Function.update (fun _ => some ([], 0)) (1, 7) (some ([a], t)))
        (Function.update (fun _ => some ([], 0)) (1, 7) (some ([b], u))) := by
    intro a b t u
    refine ⟨_, memoryStep_get (by simp) (by decide +kernel), _, memoryStep_set (by simp), ?_⟩
    simp [MemoryRun]
  rw [memoryRun_onBus, Nat.cast_one]
  rcases k with _ | _ | k
  · cases hk
    have e : (asInteractions (RingEquiv.refl (ZMod 2013265921))
        ((litAir 0).machine.messages (litRows 0))).filter
        (fun b => b.busId = (1 : ZMod 2013265921)) =
        [⟨1, -1, 1 :: 7 :: ([5] ++ [10])⟩, ⟨1, 1, 1 :: 7 :: ([6] ++ [20])⟩] := by
      decide +kernel
    rw [e]
    exact step _ _ _ _
  · cases hk
    have e : (asInteractions (RingEquiv.refl (ZMod 2013265921))
        ((litAir 4).machine.messages (litRows 1))).filter
        (fun b => b.busId = (1 : ZMod 2013265921)) =
        [⟨1, -1, 1 :: 7 :: ([6] ++ [20])⟩, ⟨1, 1, 1 :: 7 :: ([9] ++ [30])⟩] := by
      decide +kernel
    rw [e]
    exact step _ _ _ _
  · simp [litInstrs] at hk

theorem lit_states (k : ℕ) (st : ExecState (List (ZMod 2013265921)) ℕ) (hk : litStates[k]? = some st) :
    StateMatches (fun v _ => v) st (litMem k) := by
  intro space pointer
  by_cases h : (space, pointer) = ((1 : ZMod 2013265921), (7 : ZMod 2013265921))
  · cases h
    refine ⟨_, _, by rw [litMem, Function.update_self], fun i x hx => ?_⟩
    rcases i with _ | i
    · rcases k with _ | _ | _ | k
      · cases hk; cases hx; decide +kernel
      · cases hk; cases hx; decide +kernel
      · cases hk; cases hx; decide +kernel
      · simp [litStates] at hk
    · simp at hx
  · exact ⟨[], 0, by rw [litMem, Function.update_of_ne h], fun i x hx => by simp at hx⟩

/-- All literals have the values of their columns. -/
theorem lit_right {k j x : ℕ} {l : List ℕ}
    (hl : [[0, 1, 2, 3, 4, 5], [6, 7, 8, 9, 10, 11]][k]? = some l) (hj : l[j]? = some x)
    {v : OptLiteral (List (ZMod 2013265921))} (hv : literalOf litLiterals x = some v) :
    v.read (fun v _ => v) litStates = some (litRows k j).val := by
  obtain ⟨r, h1, h2, h3, h4⟩ := lit_run
  rw [← h1] at hl
  refine C68_literals r (by decide) pipelineBus (pipeline_correct 12) rfl (by decide +kernel) ?_ litRows
    lit_blockRows (fun _ _ => trivial) litMem lit_memoryRun (fun v _ => v) litStates rfl lit_states h3 0 h4
    (fun _ _ _ _ _ _ _ τ _ _ _ _ _ h => h.elim) ?_ hl hj hv
  · intro i hi
    simp only [litInstrs, List.mem_cons, List.not_mem_nil, or_false] at hi
    rcases hi with rfl | rfl <;> rfl
  · intro k here l hk hl
    rw [h2] at hk
    rw [h1] at hl
    rcases k with _ | _ | k
    · cases hk; cases hl; decide
    · cases hk; cases hl; decide
    · simp at hk

/-- The new value of the first instruction is in the state after it. -/
example : (⟨1, .registerLimb [1, 7] 0⟩ : OptLiteral (List (ZMod 2013265921))).read (fun v _ => v) litStates =
    some (litRows 0 3).val :=
  lit_right (k := 0) (j := 3) (x := 3) rfl rfl rfl

/-- A column introduced for the first instruction would be taken for the first one of the second. -/
example : ∃ r : LiteralsRun (RingEquiv.refl (ZMod 2013265921)) 0 1 (pipelineConfig 12)
    (fun _ _ _ => False) litInstrs litLiterals, ∀ m, r.ms[0]? = some m →
      (ColumnAllocator.fromMaxPolyId m).issueNextPolyId.1 = 6 := by
  obtain ⟨r, h1, -⟩ := lit_run
  refine ⟨r, fun m hm => ?_⟩
  have := (C68_collision r hm (by rw [h1]; rfl)).1
  exact (Option.some.inj this).symm

/-- In all executions seen, column 2 of the first instruction was 5, column 1 was 1, and the new value of
the first instruction was the old one of the second. -/
def litStats : EmpiricalConstraints :=
  ⟨[(0, [(0, 3), (1, 1), (5, 5), (2, 9), (3, 8), (3, 8)])], [(0, ⟨[((0, 3), 0), ((1, 2), 0)], 1⟩)],
    ⟨[], []⟩, []⟩

def litKeep : BlockCell → Bool := fun x => x.2 == 2 || x.2 == 3

def litRefs : List (BlockCell × ℕ) :=
  [((0, 0), 0), ((0, 1), 1), ((0, 2), 2), ((0, 3), 3), ((0, 4), 4), ((0, 5), 5), ((1, 0), 6), ((1, 1), 7),
    ((1, 2), 8), ((1, 3), 9), ((1, 4), 10), ((1, 5), 11)]

/-- A machine with twelve columns. -/
def litMachine : SymMachine (ZMod 2013265921) ℕ := ⟨(List.range 12).map .reference, [], []⟩

theorem lit_empirical : ∃ r : EmpiricalRun litStats 4 buildBlocks (some litKeep) litMachine
    [[0, 1, 2, 3, 4, 5], [6, 7, 8, 9, 10, 11]] [⟨2, .inr 5⟩, ⟨3, .inl 8⟩], r.refs = litRefs := by
  refine ⟨{
    refs := litRefs
    mapper := by decide +kernel
    ofBlock := ⟨[0, 4], [(0, [(0, (0, 3)), (1, (1, 1)), (2, (5, 5)), (3, (2, 9)), (4, (3, 8)), (5, (3, 8))])],
      ⟨[((0, 3), 0), ((1, 2), 0)], 1⟩⟩
    forBlock := ⟨_, .cons ⟨_, .refl _, by rfl⟩ .nil, by rfl⟩
    kept := ⟨[0, 4], [(0, [(2, (5, 5)), (3, (2, 9))])], ⟨[((0, 3), 0), ((1, 2), 0)], 1⟩⟩
    filter := ⟨nofun, fun q hq => ?_⟩
    generate := ⟨_, ⟨_, .refl _, rfl⟩, by rfl⟩ }, rfl⟩
  cases hq
  exact ⟨_, ⟨_, .refl _, rfl⟩, by rfl⟩

theorem lit_wf : litStats.WF := by
  refine ⟨?_, ?_, ?_, ?_, ?_, ?_⟩
  iterate 5 (unfold MapKeys; decide)
  intro x hx
  rw [List.mem_singleton.1 hx]
  refine ⟨by decide, by decide, ?_⟩
  intro c hc
  have : c = 0 := Nat.lt_one_iff.1 hc
  subst this
  exact ⟨(0, 3), (1, 2), by decide, by decide, by decide⟩

theorem lit_cells : ∀ b ∈ buildBlocks, CellsInBlock litStats b := by
  intro b hb x y hne h
  have hb' : b = ⟨0, [0, 1]⟩ := by simpa [buildBlocks] using hb
  subst hb'
  have hall : ∀ x ∈ (litStats.blockClasses 0).elements, x.1 < 2 := by decide
  exact hall x (same_elements h hne).1

/-- The execution constraints of the statistics accept the run exactly if the rows satisfy them. -/
example : ∃ ocs, executionConstraints 2013265921 (literalOf litLiterals) [⟨2, .inr 5⟩, ⟨3, .inl 8⟩] = .ok ocs ∧
    ((∃ ev, runEvaluator (fun v _ => v) (.fromConstraints ocs) litStates .new = .ok (some ev)) ↔
      EmpiricallyTrue litStats 4 buildBlocks litKeep litRows) := by
  obtain ⟨r, hr⟩ := lit_empirical
  obtain ⟨ocs, h1, h2⟩ := C67_restricted (φ := RingEquiv.refl (ZMod 2013265921))
    (literals := literalOf litLiterals) lit_wf lit_cells (by decide) r
    (by
      intro cell x hx
      rw [hr] at hx
      have hall : ∀ y ∈ litRefs, (litKeep y.1 = true ↔ (literalOf litLiterals y.2).isSome) := by
        decide +kernel
      obtain ⟨l₁, l₂, e, -⟩ := List.lookup_eq_some_iff.1 hx
      exact hall (cell, x) (by rw [e]; simp))
    (by decide +kernel)
    (by
      intro pc col v hv
      unfold EmpiricalConstraints.range at hv
      rw [Option.bind_eq_some_iff] at hv
      obtain ⟨l, h1, h2⟩ := hv
      have hall : ∀ y ∈ litStats.columnRangesByPc, ∀ z ∈ y.2, z.1 < 2 ^ 32 := by decide +kernel
      exact hall _ (pcMap_lookup_mem h1) _ (List.mem_of_getElem? h2))
  refine ⟨ocs, h1, h2 (fun v _ => v) litStates litRows (by simp [litStates]) fun x v hx => ?_⟩
  have hall : ∀ y ∈ litLiterals, ∃ k < 2, ∃ j < 6,
      (([[0, 1, 2, 3, 4, 5], [6, 7, 8, 9, 10, 11]] : List (List ℕ)).getD k [])[j]? = some y.1 := by
    decide +kernel
  obtain ⟨k, hk, j, hj, hkj⟩ := hall _ (literalOf_mem hx)
  have hl : ∃ l, ([[0, 1, 2, 3, 4, 5], [6, 7, 8, 9, 10, 11]] : List (List ℕ))[k]? = some l ∧
      l[j]? = some x := by
    rcases k with _ | _ | k
    · exact ⟨_, rfl, hkj⟩
    · exact ⟨_, rfl, hkj⟩
    · omega
  obtain ⟨l, hl1, hl2⟩ := hl
  exact ⟨k, l, j, hl1, hl2, lit_right hl1 hl2 hx⟩

end Verif
