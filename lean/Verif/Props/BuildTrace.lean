import Verif.Spec.BuildTrace
import Verif.Props.Build
import Verif.Props.TraceGen

/-!
# C65: from the execution of a program to the trace of a generated precompile
-/

set_option linter.unusedSectionVars false

namespace Verif

open GExpr

section
variable {p : ℕ} [Fact p.Prime] {U I : Type} [Field U] [DecidableEq U] {N : ℕ} {φ : U ≃+* ZMod p}
  {execBus step : ℕ} {c : OptimizerConfig p (Fin N)}
  {ok : RuleInput p (Fin N) → ConstraintSystem p (Fin N) → ConstraintSystem p (Fin N) → Prop}
  {air : ℕ × I → InstrAir U} {blocks : List (BasicBlock I)} {e : EmpiricalConstraints}
  {keep : Option (BlockCell → Bool)} {apc : SymMachine U ℕ} {subs : List (List (ℕ × ℕ))}

/-- C65: the columns copied from original rows are columns of the precompile, and no column is copied from two places. -/
theorem C65_copied (r : BuildRun φ execBus step c ok air blocks e keep apc subs) :
    (∀ id, IsCopied subs id → id ∈ apc.refs) ∧
    ∀ (k k' : ℕ) (s s' : List (ℕ × ℕ)) (x x' : ℕ × ℕ), subs[k]? = some s → subs[k']? = some s' → x ∈ s → x' ∈ s' →
      x.2 = x'.2 → k = k' ∧ x.1 = x'.1 := by
  have ha6 : r.a6.subs = r.a0.subs := by
    rw [(C37_column r.step6).2.1]
  constructor
  · rintro id ⟨s, hs, q, hq⟩
    rw [r.substitutions] at hs
    obtain ⟨l, -, rfl⟩ := List.mem_map.1 hs
    obtain ⟨y, hy, heq⟩ := List.mem_map.1 hq
    have := (List.mem_filter.1 hy).2
    rw [r.machine, convert_refs]
    cases heq
    simpa using this
  · have hn : r.a0.subs.flatten.Nodup := by
      rw [(C47_ids r.step0).1]
      exact List.nodup_range
    intro k k' s s' x x' hk hk' hx hx' heq
    rw [r.substitutions, apcSubs, List.getElem?_map, Option.map_eq_some_iff] at hk hk'
    obtain ⟨l, hl, rfl⟩ := hk
    obtain ⟨l', hl', rfl⟩ := hk'
    rw [ha6] at hl hl'
    obtain ⟨y, hy, rfl⟩ := List.mem_map.1 hx
    obtain ⟨y', hy', rfl⟩ := List.mem_map.1 hx'
    have h1 := List.mem_zipIdx_iff_getElem?.1 (List.mem_of_mem_filter hy)
    have h2 := List.mem_zipIdx_iff_getElem?.1 (List.mem_of_mem_filter hy')
    have heq : y.1 = y'.1 := heq
    have hkk : k = k' := by
      by_contra hne
      have hp := List.nodup_flatten.1 hn
      have hd := hp.2
      rw [List.pairwise_iff_getElem] at hd
      obtain ⟨q1, q2⟩ := List.getElem?_eq_some_iff.1 hl
      obtain ⟨q1', q2'⟩ := List.getElem?_eq_some_iff.1 hl'
      have m1 : y.1 ∈ r.a0.subs[k] := by
        rw [q2]
        exact List.mem_of_getElem? h1
      have m2 : y.1 ∈ r.a0.subs[k'] := by
        rw [q2', heq]
        exact List.mem_of_getElem? h2
      rcases Nat.lt_or_gt_of_ne hne with h | h
      · exact hd k k' q1 q1' h m1 m2
      · exact hd k' k q1' q1 h m2 m1
    refine ⟨hkk, ?_⟩
    subst hkk
    rw [hl] at hl'
    cases hl'
    have hnl : l.Nodup := (List.nodup_flatten.1 hn).1 l (List.mem_of_getElem? hl)
    obtain ⟨q1, q2⟩ := List.getElem?_eq_some_iff.1 h1
    obtain ⟨q1', q2'⟩ := List.getElem?_eq_some_iff.1 h2
    exact (hnl.getElem_inj_iff (hi := q1) (hj := q1')).1 (by rw [q2, q2', heq])

/-- The values of the expressions of a machine depend only on its columns. -/
theorem machine_congr {F : Type} [Field F] {m : SymMachine F ℕ} {σ τ : ℕ → F} (h : ∀ r ∈ m.refs, σ r = τ r) :
    (m.Holds σ ↔ m.Holds τ) ∧ m.messages σ = m.messages τ := by
  have hval : ∀ e ∈ m.exprs, e.value σ = e.value τ := fun e he =>
    value_congr e fun r hr => h r (List.mem_flatMap.2 ⟨e, he, hr⟩)
  constructor
  · unfold SymMachine.Holds
    refine forall₂_congr fun e he => ?_
    rw [hval e (List.mem_append_left _ he)]
  · refine List.map_congr_left fun b hb => ?_
    have hb' : ∀ e ∈ b.mult :: b.args, e ∈ m.exprs := fun e he =>
      List.mem_append_right _ (List.mem_flatMap.2 ⟨b, hb, he⟩)
    unfold SymBus.message
    rw [hval _ (hb' _ List.mem_cons_self)]
    congr 2
    exact List.map_congr_left fun e he => hval e (hb' e (List.mem_cons_of_mem _ he))

variable {A S R : Type} [LinearOrder A]

/-- C65: from the execution to the trace. Let a precompile be generated for a block, and be called in a segment any
number of times, where the rows that the original chips write for the records of each call are an execution of the
block. Then trace generation does not panic, and the matrix has one row for each call that satisfies the precompile and
does the same as the original rows. The rest of the rows satisfy the precompile and send nothing. -/
theorem C65_trace (r : BuildRun φ execBus step c ok air blocks e keep apc subs) (hN : N ≤ p)
    (bus : Bus p) (hc : c.Correct bus)
    (hmem : ∀ id, c.memoryBusId = some id → (execBus : ZMod p) ≠ (id : ZMod p)) (w : ℕ)
    (hair : ∀ x ∈ superBlockInstructions step blocks, (air x).Good execBus p w) (hwf : e.WF)
    (hcells : ∀ b ∈ blocks, CellsInBlock e b) (w' : ℕ)
    (he : c.rangeHandler.Exact bus w' r.step4.st.finish.system.bus)
    {instr : I → S → Option (S × R)} {is : List I} {airs : List A} {est : ℕ} (h1 : airs.length = subs.length)
    (h2 : is.length = airs.length) {log : List (CallLog S R)}
    (hruns : ∀ l ∈ log, Runs instr is l.before l.records l.after) (hest : log.length ≤ est)
    {metas : List CachedMeta} (hm : cachedMetas airs subs = .ok metas) {ss : List S} {o : OriginalArenas A R}
    (ho : executeSegment instr is airs subs metas est (log.map CallLog.before) none = .ok (ss, some o))
    {gen : A → List R → DummyTrace U} {width : A → ℕ} {row : A → R → List U}
    (hg : WritesRows gen width row) {chips : List A} (hchips : ∀ a ∈ airs, a ∈ chips)
    (hwidth : ∀ (k : ℕ) (a : A) (s : List (ℕ × ℕ)), airs[k]? = some a → subs[k]? = some s → ∀ x ∈ s, x.1 < width a)
    (hf : Fillable apc subs) {ms ms' : CallLog S R → Memory p}
    (hexec : ∀ l ∈ log, ExecutesBlock φ execBus step c air blocks e keep bus (recordRows airs row l.records) (ms l)
      (ms' l))
    (hcmp : ∀ l ∈ log, ∀ τ : Fin N → ZMod p,
      (∀ (k : ℕ) (l' : List ℕ) (j : ℕ) (v : Fin N), r.a0.subs[k]? = some l' → l'[j]? = some (v : ℕ) →
        τ v = φ (recordRows airs row l.records k j)) →
      (∀ d ∈ r.step4.news, d.Computed τ) → ComparisonsRight τ ok) :
    ∃ (rows : List (List U)) (messages : List (List (ℕ × U × List U))),
      generateWitness gen chips (some o) airs subs apc = .ok (rows.flatten, messages) ∧
      rows.length = nextPowerOfTwoOrZero log.length ∧
      (∀ (k : ℕ) (l : CallLog S R), log[k]? = some l → ∃ x, rows[k]? = some x ∧
        x.length = apc.mainColumns.length ∧
        messages[k]? = some (apc.messages (columnValue apc.mainColumns x)) ∧
        ReplacesBlock φ step c air blocks bus (recordRows airs row l.records) (ms l) (ms' l) apc
          (columnValue apc.mainColumns x)) ∧
      messages.length = log.length ∧
      ∀ (k : ℕ) (x : List U), log.length ≤ k → rows[k]? = some x → x.length = apc.mainColumns.length ∧
        apc.Holds (columnValue apc.mainColumns x) ∧
        ∀ y ∈ apc.messages (columnValue apc.mainColumns x), y.2.1 = 0 := by
  have hone : ∀ l ∈ log, ∃ σ : ℕ → U, Explains apc airs subs row l.records σ ∧
      ReplacesBlock φ step c air blocks bus (recordRows airs row l.records) (ms l) (ms' l) apc σ := by
    intro l hl
    have hx := hexec l hl
    obtain ⟨σ, g1, g2, g3, g4, g5, g6⟩ := C65_complete r hN bus hc hmem w hair hwf hcells w' he (ms l) (ms' l)
      (recordRows airs row l.records) hx.block hx.empirical hx.allowed hx.memory (hcmp l hl)
    refine ⟨σ, ⟨?_, g2⟩, ⟨g3, g4, g5, g6⟩⟩
    intro k a s rec hk hs hr q id hq
    have hlt : q < (row a rec).length := by
      rw [hg.1]
      exact hwidth k a s hk hs (q, id) hq
    rw [g1 k s hs (q, id) hq, recordRows, hk, hr]
    simp [List.getD_eq_getElem?_getD, List.getElem?_eq_getElem hlt]
  have hσ : ∃ σs : List (ℕ → U), List.Forall₂ (fun l σ => Explains apc airs subs row l.records σ ∧
      ReplacesBlock φ step c air blocks bus (recordRows airs row l.records) (ms l) (ms' l) apc σ) log σs := by
    clear ho hexec hcmp hest hruns
    induction log with
    | nil => exact ⟨[], .nil⟩
    | cons l log ih =>
      obtain ⟨σ, hσ⟩ := hone l List.mem_cons_self
      obtain ⟨σs, h⟩ := ih fun l' h => hone l' (List.mem_cons_of_mem _ h)
      exact ⟨σ :: σs, .cons hσ h⟩
  obtain ⟨σs, hσ⟩ := hσ
  have hlen := hσ.length_eq
  have hcong : ∀ σ : ℕ → U, (apc.Holds (columnValue apc.mainColumns (apc.mainColumns.map σ)) ↔ apc.Holds σ) ∧
      apc.messages (columnValue apc.mainColumns (apc.mainColumns.map σ)) = apc.messages σ := fun σ =>
    machine_congr fun q hq => columnValue_map (mem_mainColumns.2 hq)
  have hzero : apc.Holds (fun _ => 0) ∧ ∀ y ∈ apc.messages (fun _ => 0), y.2.1 = 0 := by
    have k1 := C37_padding r.step6
    have k2 := C37_inactive r.step6 rfl k1
    obtain ⟨c1, -, c3⟩ := C59_convert (φ.symm : ZMod p →+* U) (fun _ => 0) r.m6
    have e0 : ((φ.symm : ZMod p →+* U) ∘ fun _ : ℕ => (0 : ZMod p)) = fun _ => 0 := by
      funext i
      simp
    rw [e0] at c1 c3
    have em : apc = r.m6.convert (φ.symm : ZMod p →+* U) := r.machine
    rw [← em] at c1 c3
    refine ⟨c1 k1, fun y hy => ?_⟩
    rw [c3] at hy
    obtain ⟨z, hz, rfl⟩ := List.mem_map.1 hy
    simp [k2 z hz]
  have hzrow : columnValue apc.mainColumns (List.replicate apc.mainColumns.length (0 : U)) = fun _ => 0 := by
    funext id
    simp [columnValue, List.getD_eq_getElem?_getD, List.getElem?_replicate]
    split <;> rfl
  have hne : apc.refs ≠ [] := by
    have hd : (N, SymMethod.constant (1 : U)) ∈ apc.derived := by
      have em : apc = r.m6.convert (φ.symm : ZMod p →+* U) := r.machine
      rw [em, SymMachine.convert, (C37_column r.step6).1]
      simp
    intro h0
    obtain ⟨before, after, hba⟩ := List.append_of_mem hd
    have := (hf.computed before _ after hba).1
    rw [h0] at this
    cases this
  have hw := C64_matrix (F := U) h1 h2 hruns hest hm ho hg hchips hf hne (hσ.imp fun _ _ h => h.1)
  refine ⟨_, _, hw, ?_, ?_, by rw [List.length_map, hlen], ?_⟩
  · rw [List.length_append, List.length_map, List.length_replicate, ← hlen]
    have := clog_ge log.length
    omega
  · intro k l hk
    have hkl := (List.getElem?_eq_some_iff.1 hk).1
    have hks : k < σs.length := by omega
    have hkσ : σs[k]? = some σs[k] := List.getElem?_eq_getElem hks
    have hq := (List.forall₂_iff_get.1 hσ).2 k hkl hks
    simp only [List.get_eq_getElem, (List.getElem?_eq_some_iff.1 hk).2] at hq
    obtain ⟨q1, q2⟩ := hq
    refine ⟨apc.mainColumns.map σs[k], ?_, by simp, ?_, ?_⟩
    · rw [List.getElem?_append_left (by simpa using hks), List.getElem?_map, hkσ]
      rfl
    · rw [(hcong _).2, List.getElem?_map, hkσ]
      rfl
    · refine ⟨(hcong _).1.2 q2.holds, ?_, ?_, ?_⟩
      · rw [(hcong _).2]
        exact q2.allowed
      · rw [(hcong _).2]
        exact q2.memory
      · rw [(hcong _).2]
        exact q2.balance
  · intro k x hk hx
    rw [List.getElem?_append_right (by simpa [← hlen] using hk)] at hx
    have := List.eq_of_mem_replicate (List.mem_of_getElem? hx)
    subst this
    rw [hzrow]
    exact ⟨by simp, hzero⟩

end

/-! ### A sample

The precompile `buildApc` is called twice. The state is the value written and read. -/

attribute [local instance] fact_babyBear

def buildInstr (_ : ℕ) (s : ℕ) : Option (ℕ × ℕ) := some (s, s)

def buildRow (a r : ℕ) : List (ZMod 2013265921) := [4 * a, 1, r, 100]

def buildGen (a : ℕ) (rs : List ℕ) : DummyTrace (ZMod 2013265921) := ⟨4, rs.flatMap (buildRow a)⟩

def buildLog : List (CallLog ℕ ℕ) := [⟨5, [5, 5], 5⟩, ⟨5, [5, 5], 5⟩]

theorem buildApc_fillable : Fillable buildApc [[(2, 2)], []] where
  copied := by
    rintro id ⟨s, hs, q, hq⟩
    simp only [List.mem_cons, List.not_mem_nil, or_false] at hs
    rcases hs with rfl | rfl
    · simp only [List.mem_cons, List.not_mem_nil, or_false, Prod.mk.injEq] at hq
      rw [hq.2]
      decide
    · cases hq
  computed := by
    intro before d after h
    cases before with
    | nil =>
      simp only [buildApc, List.nil_append, List.cons.injEq] at h
      rw [← h.1]
      exact ⟨by decide, fun r hr => nomatch hr⟩
    | cons x t =>
      simp only [buildApc, List.cons_append, List.cons.injEq] at h
      have := congrArg List.length h.2
      simp at this
  covered := by
    have : ∀ id ∈ buildApc.refs, id = 2 ∨ id = 8 := by decide
    intro id hid
    rcases this id hid with rfl | rfl
    · exact .inl ⟨_, List.mem_cons_self, 2, List.mem_cons_self⟩
    · exact .inr ⟨_, List.mem_cons_self, rfl⟩

theorem buildRecords : recordRows [0, 1] buildRow [5, 5] = buildRows := by
  funext k q
  rcases k with _ | _ | k
  · simp [recordRows, buildRow, buildRows]
  · simp [recordRows, buildRow, buildRows]
  · simp [recordRows, buildRows]

example : ∃ (o : OriginalArenas ℕ ℕ) (rows : List (List (ZMod 2013265921))) (messages : List (List (ℕ × ZMod 2013265921 × List (ZMod 2013265921)))),
    generateWitness buildGen [0, 1] (some o) [0, 1] [[(2, 2)], []] buildApc = .ok (rows.flatten, messages) ∧
    rows.length = 2 ∧ ∀ x ∈ rows, buildApc.Holds (columnValue buildApc.mainColumns x) := by
  obtain ⟨r, -, he⟩ := build_run
  have hruns : ∀ l ∈ buildLog, Runs buildInstr [0, 1] l.before l.records l.after := by
    have : Runs buildInstr [0, 1] 5 [5, 5] 5 := .cons rfl (.cons rfl (.nil _))
    simp [buildLog, this]
  obtain ⟨metas, o, hm, ho, -⟩ := C54_execution (A := ℕ) (step := buildInstr) (is := [0, 1]) (airs := [0, 1])
    (subs := [[(2, 2)], []]) (est := 2) rfl rfl
    (log := buildLog) (by simp [buildLog]) hruns (by simp [buildLog])
  obtain ⟨rows, messages, h1, h2, h3, -, -⟩ := C65_trace r (by decide) pipelineBus (pipeline_correct 8)
    (by intro id hid; cases hid; decide +kernel) 1 build_good build_wf build_cells 0 he (A := ℕ) (airs := [0, 1]) (est := 2)
    rfl rfl hruns
    (by simp [buildLog]) hm ho (gen := buildGen) (width := fun _ => 4) (row := buildRow)
    ⟨fun _ _ => rfl, fun a rs => ⟨rfl, [], by simp [buildGen]⟩⟩ (chips := [0, 1]) (by simp)
    (by
      intro k a s ha hs x hx
      rcases k with _ | _ | k
      · cases hs
        rw [List.mem_singleton.1 hx]
        decide
      · cases hs
        cases hx
      · simp at hs)
    buildApc_fillable (ms := fun _ => fun _ => none) (ms' := fun _ => fun _ => none)
    (by
      intro l hl
      have : l.records = [5, 5] := by
        simp only [buildLog, List.mem_cons, List.not_mem_nil, or_false] at hl
        rcases hl with rfl | rfl <;> rfl
      rw [this, buildRecords]
      exact ⟨build_blockRows, build_empiricallyTrue, fun _ _ => trivial,
        by intro id hid; cases hid; exact build_memoryRun⟩)
    (fun l _ τ _ _ _ _ _ h => h.elim)
  have hl : rows.length = 2 := h2.trans (by decide)
  refine ⟨o, rows, messages, h1, hl, fun x hx => ?_⟩
  obtain ⟨k, hk⟩ := List.mem_iff_getElem?.1 hx
  have hk2 : k < 2 := hl ▸ (List.getElem?_eq_some_iff.1 hk).1
  obtain ⟨l, hlk⟩ : ∃ l, buildLog[k]? = some l := ⟨buildLog[k], List.getElem?_eq_getElem hk2⟩
  obtain ⟨x', hx', -, -, hr⟩ := h3 k l hlk
  rw [hk] at hx'
  cases hx'
  exact hr.holds

end Verif
