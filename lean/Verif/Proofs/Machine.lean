import Verif.Proofs.Expression

/-!
# Proofs about guards, column ids and block machines
-/

namespace Verif

open GExpr

set_option linter.unusedSectionVars false

variable {p : ℕ}

/-! ### Guards -/

theorem mul_const_const {V : Type} [LinearOrder V] (a b : ZMod p) :
    mul (const a : GExpr p V) (const b) = const (a * b) := by
  unfold mul
  split
  · rename_i k hk
    simp only [const, tryToKnown, Option.some.injEq] at hk
    subst hk
    simp [scale, const, zero, scaleQ, mul_comm]
    try (intro h; simp [h])
  · rename_i h
    simp [const, tryToKnown] at h

theorem zeroed_const (e : AlgExpr (ZMod p) ℕ) :
    algebraicToGrouped (makeRefsZero e) = const (e.value fun _ => 0) := by
  induction e with
  | reference r => rfl
  | number n => rfl
  | binary l op r ihl ihr =>
    unfold algebraicToGrouped at *
    cases op with
    | add =>
      rw [makeRefsZero, AlgExpr.toExpression, ihl, ihr]
      rfl
    | sub =>
      rw [makeRefsZero, AlgExpr.toExpression, ihl, ihr]
      exact congrArg const (sub_eq_add_neg _ _).symm
    | mul =>
      rw [makeRefsZero, AlgExpr.toExpression, ihl, ihr]
      exact mul_const_const _ _
  | minus e ih =>
    unfold algebraicToGrouped at *
    rw [makeRefsZero, AlgExpr.toExpression, ih]
    rfl

theorem satisfiesZeroWitness_eq (e : AlgExpr (ZMod p) ℕ) :
    satisfiesZeroWitness e = .ok (decide ((e.value fun _ => 0) = 0)) := by
  unfold satisfiesZeroWitness
  rw [zeroed_const]
  rfl

/-- The result of `addGuardsConstraint`, without the panics. -/
theorem addGuardsConstraint_spec (iv : AlgExpr (ZMod p) ℕ) (e : AlgExpr (ZMod p) ℕ) :
    ∃ e', addGuardsConstraint iv e = .ok e' ∧ (e'.value fun _ => 0) =
        (if (iv.value fun _ => (0 : ZMod p)) = 0 then 0 else e'.value fun _ => 0) ∧
      ∀ σ, iv.value σ = 1 → e'.value σ = e.value σ := by
  induction e with
  | reference r =>
    refine ⟨.reference r, ?_, by simp [AlgExpr.value], fun _ _ => rfl⟩
    rw [addGuardsConstraint, satisfiesZeroWitness_eq]
    simp [AlgExpr.value]
  | number n =>
    rw [addGuardsConstraint, satisfiesZeroWitness_eq]
    by_cases h : n = 0
    · refine ⟨.number n, ?_, by simp [AlgExpr.value, h], fun _ _ => rfl⟩
      simp [AlgExpr.value, h]
      rfl
    · refine ⟨.binary (.number n) .mul iv, ?_, ?_, fun σ hσ => by simp [AlgExpr.value, hσ]⟩
      · simp [AlgExpr.value, h]
        rfl
      · split_ifs with h' <;> simp [AlgExpr.value, h']
  | binary l op r ihl ihr =>
    obtain ⟨l', l1, l2, l3⟩ := ihl
    obtain ⟨r', r1, r2, r3⟩ := ihr
    rw [addGuardsConstraint, satisfiesZeroWitness_eq]
    by_cases h : ((AlgExpr.binary l op r).value fun _ => (0 : ZMod p)) = 0
    · refine ⟨.binary l op r, ?_, by simp [h], fun _ _ => rfl⟩
      simp [h]
      rfl
    · cases op with
      | add =>
        refine ⟨.binary l' .add r', ?_, ?_, fun σ hσ => ?_⟩
        · simp only [h, decide_false, l1, r1]; rfl
        · split_ifs with h'
          · rw [if_pos h'] at l2 r2; simp [AlgExpr.value, l2, r2]
          · rfl
        · simp [AlgExpr.value, l3 σ hσ, r3 σ hσ]
      | sub =>
        refine ⟨.binary l' .sub r', ?_, ?_, fun σ hσ => ?_⟩
        · simp only [h, decide_false, l1, r1]; rfl
        · split_ifs with h'
          · rw [if_pos h'] at l2 r2; simp [AlgExpr.value, l2, r2]
          · rfl
        · simp [AlgExpr.value, l3 σ hσ, r3 σ hσ]
      | mul =>
        refine ⟨.binary l' .mul r, ?_, ?_, fun σ hσ => ?_⟩
        · simp only [h, decide_false, l1]; rfl
        · split_ifs with h'
          · rw [if_pos h'] at l2; simp [AlgExpr.value, l2]
          · rfl
        · simp [AlgExpr.value, l3 σ hσ]
  | minus e ih =>
    obtain ⟨e', e1, e2, e3⟩ := ih
    rw [addGuardsConstraint, satisfiesZeroWitness_eq]
    by_cases h : ((AlgExpr.minus e).value fun _ => (0 : ZMod p)) = 0
    · refine ⟨.minus e, ?_, by simp [h], fun _ _ => rfl⟩
      simp [h]
      rfl
    · refine ⟨.minus e', ?_, ?_, fun σ hσ => ?_⟩
      · simp only [h, decide_false, e1]; rfl
      · split_ifs with h'
        · rw [if_pos h'] at e2; simp [AlgExpr.value, e2]
        · rfl
      · simp [AlgExpr.value, e3 σ hσ]

theorem value_canonicalize (σ : ℕ → ZMod p) (e : AlgExpr (ZMod p) ℕ) :
    (canonicalize e).value σ = e.value σ := by
  rw [canonicalize, value_groupedToAlgebraic, eval_algebraicToGrouped]

theorem guardBus_spec (id : ℕ) (b : SymBus (ZMod p) ℕ) :
    ∃ b' cs, guardBus (.reference id) b = .ok (b', cs) ∧ (b'.id = b.id ∧ b'.args = b.args) ∧
      (∀ σ, σ id = 1 → b'.message σ = b.message σ ∧ ∀ e ∈ cs, e.value σ = 0) ∧
      (∀ e ∈ cs, (e.value fun _ => 0) = 0) ∧
      ∀ σ, σ id = 0 → (∀ e ∈ cs, e.value σ = 0) → b'.mult.value σ = 0 := by
  unfold guardBus
  rw [satisfiesZeroWitness_eq]
  by_cases h : (b.mult.value fun _ => (0 : ZMod p)) = 0
  · refine ⟨b, _, by simp only [h, decide_true]; rfl, ⟨rfl, rfl⟩, fun σ hσ => ⟨rfl, ?_⟩, ?_, fun σ h0 hc => ?_⟩
    · intro e he
      rw [List.mem_singleton.1 he, value_toConstraint, value_canonicalize]
      simp [AlgExpr.value, hσ]
    · intro e he
      rw [List.mem_singleton.1 he, value_toConstraint, value_canonicalize]
      simp [AlgExpr.value, h]
    · have := hc _ (List.mem_singleton.2 rfl)
      rw [value_toConstraint, value_canonicalize] at this
      simpa [AlgExpr.value, h0] using this
  · refine ⟨{ b with mult := canonicalize (.binary (.reference id) .mul b.mult) }, [],
      by simp only [h, decide_false]; rfl, ⟨rfl, rfl⟩, fun σ hσ => ⟨?_, by simp⟩, by simp,
      fun σ h0 _ => ?_⟩
    · simp only [SymBus.message, value_canonicalize]
      simp [AlgExpr.value, hσ]
    · simp only [value_canonicalize]
      simp [AlgExpr.value, h0]

/-- The guarded machine before the degree check and the last constraint. -/
theorem addGuards_shape (m : SymMachine (ZMod p) ℕ) (a : ColumnAllocator) :
    ∃ m' : SymMachine (ZMod p) ℕ,
      addGuards m a = (if m.degree ≠ 0 ∧ m'.bus ≠ [] ∧ m.degree ≠ m'.degree then .error .assertion
        else .ok ({ m' with constraints := m'.constraints ++
          [(makeBool (.reference a.nextPolyId)).toConstraint] },
          { a with nextPolyId := a.nextPolyId + 1 })) ∧
      m'.derived = m.derived ++ [(a.nextPolyId, .constant 1)] ∧
      (∀ σ, σ a.nextPolyId = 1 → (m'.Holds σ ↔ m.Holds σ) ∧ m'.messages σ = m.messages σ) ∧
      m'.Holds (fun _ => 0) ∧
      (∀ σ, σ a.nextPolyId = 0 → m'.Holds σ → ∀ b ∈ m'.bus, b.mult.value σ = 0) ∧
      m'.bus.map (fun b => (b.id, b.args)) = m.bus.map fun b => (b.id, b.args) := by
  classical
  have hiv : ((AlgExpr.reference a.nextPolyId : AlgExpr (ZMod p) ℕ).value fun _ => (0 : ZMod p)) = 0 :=
    rfl
  choose g g1 g2 g3 using addGuardsConstraint_spec (AlgExpr.reference a.nextPolyId : AlgExpr (ZMod p) ℕ)
  choose bf cf b1 b0 b2 b3 b4 using guardBus_spec (p := p) a.nextPolyId
  have hc : (m.constraints.mapM fun c => do
      let e ← addGuardsConstraint (AlgExpr.reference a.nextPolyId) c
      pure (canonicalize e).toConstraint) =
      .ok (m.constraints.map fun c => (canonicalize (g c)).toConstraint) :=
    mapM_of_forall _ fun c _ => by rw [g1]; rfl
  have hb : m.bus.mapM (guardBus (AlgExpr.reference a.nextPolyId)) =
      .ok (m.bus.map fun b => (bf b, cf b)) := mapM_of_forall _ fun b _ => b1 b
  have hbus : (m.bus.map fun b => (bf b, cf b)).map Prod.fst = m.bus.map bf := by
    rw [List.map_map]; rfl
  have hcs : (m.bus.map fun b => (bf b, cf b)).flatMap Prod.snd = m.bus.flatMap cf := by
    rw [List.flatMap_map]
  refine ⟨{ constraints := (m.constraints.map fun c => (canonicalize (g c)).toConstraint) ++
      m.bus.flatMap cf, bus := m.bus.map bf, derived := m.derived ++ [(a.nextPolyId, .constant 1)] },
    ?_, rfl, fun σ hσ => ⟨?_, ?_⟩, ?_, ?_, ?_⟩
  · unfold addGuards
    simp only [ColumnAllocator.issueNextPolyId]
    rw [hc]
    simp only [bind, Except.bind]
    rw [hb]
    simp only [hbus, hcs]
    rfl
  · have hval : (AlgExpr.reference a.nextPolyId : AlgExpr (ZMod p) ℕ).value σ = 1 := hσ
    constructor
    · intro h c hm
      have := h _ (List.mem_append_left _ (List.mem_map.2 ⟨c, hm, rfl⟩))
      rwa [value_toConstraint, value_canonicalize, g3 c σ hval] at this
    · intro h e he
      rcases List.mem_append.1 he with he | he
      · obtain ⟨c, hm, rfl⟩ := List.mem_map.1 he
        rw [value_toConstraint, value_canonicalize, g3 c σ hval]
        exact h c hm
      · obtain ⟨b, hb, he⟩ := List.mem_flatMap.1 he
        exact (b2 b σ hσ).2 e he
  · simp only [SymMachine.messages, List.map_map]
    exact List.map_congr_left fun b _ => (b2 b σ hσ).1
  · intro e he
    rcases List.mem_append.1 he with he | he
    · obtain ⟨c, hm, rfl⟩ := List.mem_map.1 he
      rw [value_toConstraint, value_canonicalize]
      have := g2 c
      rwa [if_pos hiv] at this
    · obtain ⟨b, hb, he⟩ := List.mem_flatMap.1 he
      exact b3 b e he
  · intro σ hσ h b hb
    obtain ⟨b', hb', rfl⟩ := List.mem_map.1 hb
    exact b4 b' σ hσ fun e he =>
      h e (List.mem_append_right _ (List.mem_flatMap.2 ⟨b', hb', he⟩))
  · rw [List.map_map]
    refine List.map_congr_left fun b _ => ?_
    exact Prod.ext (b0 b).1 (b0 b).2

/-! ### Conversions of machines -/

theorem value_mapRefs {F R R' : Type} [CommRing F] (f : R → R') (σ : R' → F) (e : AlgExpr F R) :
    (e.mapRefs f).value σ = e.value (σ ∘ f) := by
  induction e with
  | reference r => rfl
  | number n => rfl
  | binary l op r ihl ihr => cases op <;> simp only [AlgExpr.mapRefs, AlgExpr.value, ihl, ihr]
  | minus e ih => simp only [AlgExpr.mapRefs, AlgExpr.value, ih]

theorem value_convert {F G R : Type} [CommRing F] [CommRing G] (f : F →+* G) (σ : R → F)
    (e : AlgExpr F R) : (e.convert f).value (f ∘ σ) = f (e.value σ) := by
  induction e with
  | reference r => rfl
  | number n => rfl
  | binary l op r ihl ihr => cases op <;> simp [AlgExpr.convert, AlgExpr.value, ihl, ihr]
  | minus e ih => simp [AlgExpr.convert, AlgExpr.value, ih]

theorem refs_mapRefs {T R R' : Type} (f : R → R') (e : AlgExpr T R) :
    (e.mapRefs f).refs = e.refs.map f := by
  induction e with
  | reference r => rfl
  | number n => rfl
  | binary l op r ihl ihr => simp [AlgExpr.mapRefs, AlgExpr.refs, ihl, ihr]
  | minus e ih => simp [AlgExpr.mapRefs, AlgExpr.refs, ih]

theorem refs_convert {T U R : Type} (f : T → U) (e : AlgExpr T R) : (e.convert f).refs = e.refs := by
  induction e with
  | reference r => rfl
  | number n => rfl
  | binary l op r ihl ihr => simp [AlgExpr.convert, AlgExpr.refs, ihl, ihr]
  | minus e ih => simp [AlgExpr.convert, AlgExpr.refs, ih]

theorem value_congr {F R : Type} [CommRing F] {σ τ : R → F} (e : AlgExpr F R)
    (h : ∀ r ∈ e.refs, σ r = τ r) : e.value σ = e.value τ := by
  induction e with
  | reference r => exact h r (by simp [AlgExpr.refs])
  | number n => rfl
  | binary l op r ihl ihr =>
    have h1 := ihl fun r hr => h r (by simp [AlgExpr.refs, hr])
    have h2 := ihr fun r hr => h r (by simp [AlgExpr.refs, hr])
    cases op <;> simp only [AlgExpr.value, h1, h2]
  | minus e ih => simp only [AlgExpr.value, ih h]

theorem mapRefs_refs {T : Type} (f : ℕ → ℕ) (m : SymMachine T ℕ) :
    (m.mapRefs f).refs = m.refs.map f := by
  simp only [SymMachine.refs, SymMachine.exprs, SymMachine.mapRefs, List.flatMap_append,
    List.map_append, List.flatMap_map, List.map_flatMap, List.flatMap_assoc, refs_mapRefs,
    List.flatMap_cons]

theorem convert_refs {T U : Type} (f : T → U) (m : SymMachine T ℕ) :
    (m.convert f).refs = m.refs := by
  simp only [SymMachine.refs, SymMachine.exprs, SymMachine.convert, List.flatMap_append,
    List.flatMap_map, List.flatMap_assoc, refs_convert, List.flatMap_cons]

theorem concatenate_refs {T : Type} (m n : SymMachine T ℕ) (r : ℕ) :
    r ∈ (m.concatenate n).refs ↔ r ∈ m.refs ∨ r ∈ n.refs := by
  simp only [SymMachine.refs, SymMachine.exprs, SymMachine.concatenate, List.flatMap_append,
    List.mem_append]
  tauto

/-! ### Column ids -/

theorem le_foldl_max (l : List ℕ) : ∀ a, a ≤ l.foldl max a ∧ ∀ x ∈ l, x ≤ l.foldl max a := by
  induction l with
  | nil => intro a; simp
  | cons b t ih =>
    intro a
    obtain ⟨h1, h2⟩ := ih (max a b)
    rw [List.foldl_cons]
    refine ⟨(le_max_left a b).trans h1, fun x hx => ?_⟩
    rcases List.mem_cons.1 hx with rfl | hx
    · exact (le_max_right a x).trans h1
    · exact h2 x hx

theorem globalize_ok {T : Type} {m m' : SymMachine T ℕ} {next next' : ℕ} {subs : List ℕ}
    (h : globalizeReferences m next = .ok (next', subs, m')) :
    ∃ n, 0 < n ∧ next' = next + n ∧ subs = List.range' next n ∧ m' = m.mapRefs (· + next) ∧
      ∀ r, r ∈ m.refs ↔ r < n := by
  unfold globalizeReferences at h
  simp only at h
  split at h
  · cases h
  · rename_i i t ht
    split_ifs at h with h1
    cases h
    refine ⟨m.refs.dedup.length, by rw [ht]; simp, rfl, rfl, rfl, ?_⟩
    have hle : ∀ r ∈ m.refs.dedup, r < m.refs.dedup.length := by
      intro r hr
      have : r ≤ t.foldl max i := by
        rw [ht] at hr
        rcases List.mem_cons.1 hr with rfl | hr
        · exact (le_foldl_max t r).1
        · exact (le_foldl_max t i).2 r hr
      have hpos : 0 < m.refs.dedup.length := by rw [ht]; simp
      omega
    have hsub : m.refs.dedup.toFinset ⊆ Finset.range m.refs.dedup.length := by
      intro r hr
      exact Finset.mem_range.2 (hle r (List.mem_toFinset.1 hr))
    have heq := Finset.eq_of_subset_of_card_le hsub (by
      rw [Finset.card_range, List.toFinset_card_of_nodup (List.nodup_dedup _)])
    intro r
    rw [← List.mem_dedup, ← List.mem_toFinset, heq, Finset.mem_range]

/-! ### Block machines -/

/-- What the constraints of a block say about the row of one instruction. -/
theorem instructionMachine_ok {U : Type} {f : U → ZMod p} {execBus pcBus next next' : ℕ}
    {i : InstrAir U} {subs : List ℕ} {m : SymMachine (ZMod p) ℕ}
    (h : instructionMachine execBus pcBus f next i = .ok (next', subs, m)) :
    ∃ n r s pc, 0 < n ∧ next' = next + n ∧ subs = List.range' next n ∧
      (∀ k, k ∈ i.machine.refs ↔ k < n) ∧
      ((i.machine.convert f).bus.filter fun b => b.id = execBus) = [r, s] ∧
      ((i.machine.convert f).bus.filter fun b => b.id = pcBus) = [pc] ∧
      pc.args.length = i.pcLookupRow.length ∧
      m.bus = ((i.machine.convert f).mapRefs (· + next)).bus ∧ m.derived = (i.machine.convert f).derived ∧
      m.constraints = ((i.machine.convert f).mapRefs (· + next)).constraints ++
        [(AlgExpr.binary (r.mult.mapRefs (· + next)) .add (.number 1)).toConstraint] ++
        ((pc.args.map (AlgExpr.mapRefs (· + next))).zip (i.pcLookupRow.map f)).map fun x =>
          (AlgExpr.binary x.1 .sub (.number x.2)).toConstraint := by
  unfold instructionMachine at h
  simp only at h
  cases hg : globalizeReferences (i.machine.convert f) next with
  | error x => rw [hg] at h; cases h
  | ok r =>
    obtain ⟨nx, sb, mm⟩ := r
    rw [hg] at h
    simp only [bind, Except.bind] at h
    obtain ⟨n, n1, rfl, rfl, rfl, n2⟩ := globalize_ok hg
    rw [convert_refs] at n2
    have hfil : ∀ id : ℕ, (((i.machine.convert f).mapRefs (· + next)).bus.filter
        fun b => b.id = id) = ((i.machine.convert f).bus.filter fun b => b.id = id).map
          fun b => ⟨b.id, b.mult.mapRefs (· + next), b.args.map (AlgExpr.mapRefs (· + next))⟩ := by
      intro id
      simp only [SymMachine.mapRefs, List.filter_map]
      rfl
    split at h
    · rename_i pcm hpc
      rw [hfil pcBus] at hpc
      obtain ⟨pc, pc1, pc2⟩ := List.map_eq_singleton_iff.1 hpc
      subst pc2
      unfold execReceive at h
      rw [hfil execBus] at h
      match hx : (i.machine.convert f).bus.filter (fun b => decide (b.id = execBus)) with
      | [] => rw [hx] at h; cases h
      | [a] => rw [hx] at h; cases h
      | [a, b] =>
        rw [hx] at h
        simp only [List.map_cons, List.map_nil] at h
        split_ifs at h with hl
        simp only [List.length_map, ne_eq, not_not] at hl
        cases h
        exact ⟨n, a, b, pc, n1, rfl, rfl, n2, hx, pc1, hl, rfl, rfl, rfl⟩
      | a :: b :: c :: t => rw [hx] at h; cases h
    · cases h

/-- The row of an instruction within a row of the block. -/
def localRow (σ : ℕ → ZMod p) (subs : List ℕ) : ℕ → ZMod p := fun c => σ (subs.getD c 0)

theorem localRow_range' (σ : ℕ → ZMod p) {next n c : ℕ} (hc : c < n) :
    localRow σ (List.range' next n) c = (σ ∘ (· + next)) c := by
  simp [localRow, List.getD, hc, Nat.add_comm]

theorem value_localRow {σ : ℕ → ZMod p} {next n : ℕ} {e : AlgExpr (ZMod p) ℕ}
    (h : ∀ r ∈ e.refs, r < n) :
    (e.mapRefs (· + next)).value σ = e.value (localRow σ (List.range' next n)) := by
  rw [value_mapRefs]
  exact value_congr e fun r hr => (localRow_range' σ (h r hr)).symm

section
variable {U : Type} {f : U → ZMod p} {execBus pcBus : ℕ}

theorem instructionMachine_holds {next next' : ℕ} {i : InstrAir U} {subs : List ℕ}
    {m : SymMachine (ZMod p) ℕ}
    (h : instructionMachine execBus pcBus f next i = .ok (next', subs, m)) (σ : ℕ → ZMod p) :
    (m.Holds σ ↔ (i.machine.convert f).Holds (localRow σ subs) ∧
      (∀ r s, ((i.machine.convert f).bus.filter fun b => b.id = execBus) = [r, s] →
        r.mult.value (localRow σ subs) = -1) ∧
      (∀ pc, pc ∈ (i.machine.convert f).bus → pc.id = pcBus →
        pc.args.map (AlgExpr.value (localRow σ subs)) = i.pcLookupRow.map f)) ∧
    m.messages σ = (i.machine.convert f).messages (localRow σ subs) := by
  obtain ⟨n, r, s, pc, h0, h1, rfl, h2, h3, h4, h5, h6, h7, h8⟩ := instructionMachine_ok h
  have hrefs : ∀ e ∈ (i.machine.convert f).exprs, ∀ r ∈ e.refs, r < n := by
    intro e he r hr
    have : r ∈ (i.machine.convert f).refs := List.mem_flatMap.2 ⟨e, he, hr⟩
    rw [convert_refs] at this
    exact (h2 r).1 this
  have hcon : ∀ e ∈ (i.machine.convert f).constraints, ∀ r ∈ e.refs, r < n := fun e he =>
    hrefs e (List.mem_append_left _ he)
  have hbus : ∀ b ∈ (i.machine.convert f).bus, (∀ r ∈ b.mult.refs, r < n) ∧
      ∀ e ∈ b.args, ∀ r ∈ e.refs, r < n := fun b hb =>
    ⟨hrefs _ (List.mem_append_right _ (List.mem_flatMap.2 ⟨b, hb, by simp⟩)), fun e he =>
      hrefs _ (List.mem_append_right _ (List.mem_flatMap.2 ⟨b, hb, by simp [he]⟩))⟩
  have hr : r ∈ (i.machine.convert f).bus := by
    have : r ∈ [r, s] := by simp
    rw [← h3] at this
    exact (List.mem_filter.1 this).1
  have hpc : pc ∈ (i.machine.convert f).bus := by
    have : pc ∈ [pc] := by simp
    rw [← h4] at this
    exact (List.mem_filter.1 this).1
  constructor
  · have e1 : m.Holds σ ↔ (∀ e ∈ ((i.machine.convert f).mapRefs (· + next)).constraints,
          e.value σ = 0) ∧
        (r.mult.mapRefs (· + next)).value σ + 1 = 0 ∧
        ∀ x ∈ (pc.args.map (AlgExpr.mapRefs (· + next))).zip (i.pcLookupRow.map f),
          x.1.value σ - x.2 = 0 := by
      unfold SymMachine.Holds
      rw [h8]
      simp only [List.mem_append, List.mem_singleton, List.mem_map, or_imp, forall_and,
        forall_eq, forall_exists_index, and_imp, forall_apply_eq_imp_iff₂, value_toConstraint,
        AlgExpr.value]
      tauto
    rw [e1]
    refine and_congr ?_ (and_congr ?_ ?_)
    · simp only [SymMachine.mapRefs, SymMachine.Holds, List.mem_map, forall_exists_index, and_imp,
        forall_apply_eq_imp_iff₂]
      exact forall₂_congr fun e he => by rw [value_localRow (hcon e he)]
    · rw [value_localRow (hbus r hr).1, h3]
      constructor
      · intro hv r' s' hrs
        cases hrs
        exact eq_neg_of_add_eq_zero_left hv
      · intro hv
        rw [hv r s rfl, neg_add_cancel]
    · have e2 : (∀ x ∈ (pc.args.map (AlgExpr.mapRefs (· + next))).zip (i.pcLookupRow.map f),
          x.1.value σ - x.2 = 0) ↔
          pc.args.map (AlgExpr.value (localRow σ (List.range' next n))) = i.pcLookupRow.map f := by
        have := (hbus pc hpc).2
        revert this
        generalize pc.args = args at h5
        generalize i.pcLookupRow = row at h5
        induction args generalizing row with
        | nil =>
          intro _
          cases row with
          | nil => simp
          | cons a t => cases h5
        | cons a t ih =>
          intro ha
          cases row with
          | nil => cases h5
          | cons b u =>
            have := ih u (Nat.succ.inj h5) fun e he => ha e (by simp [he])
            simp only [sub_eq_zero] at this
            simp only [List.map_cons, List.zip_cons_cons, List.mem_cons, forall_eq_or_imp,
              List.cons.injEq, value_localRow (ha a (by simp)), sub_eq_zero, this]
      rw [e2]
      constructor
      · intro hv pc' h1' h2'
        have : pc' ∈ [pc] := by rw [← h4]; exact List.mem_filter.2 ⟨h1', by simpa using h2'⟩
        rw [List.mem_singleton.1 this]
        exact hv
      · intro hv
        have : pc ∈ [pc] := by simp
        rw [← h4] at this
        exact hv pc hpc (by simpa using (List.mem_filter.1 this).2)
  · simp only [SymMachine.messages, h6, SymMachine.mapRefs, List.map_map]
    refine List.map_congr_left fun b hb => ?_
    simp only [Function.comp_def, SymBus.message, value_localRow (hbus b hb).1, List.map_map]
    congr 2
    exact List.map_congr_left fun e he => value_localRow ((hbus b hb).2 e he)

theorem instructionMachines_ok : ∀ {is : List (InstrAir U)} {next next' : ℕ} {subs : List (List ℕ)}
    {ms : List (SymMachine (ZMod p) ℕ)},
    instructionMachines execBus pcBus f next is = .ok (next', subs, ms) →
    List.Forall₂ (fun x m => ∃ next next', instructionMachine execBus pcBus f next x.1 =
      .ok (next', x.2, m)) (is.zip subs) ms ∧
    subs.length = is.length ∧ next ≤ next' ∧ subs.flatten = List.range' next (next' - next) ∧
    (∀ x ∈ is.zip subs, x.2.length = x.1.machine.refs.dedup.length) ∧
    ∀ m ∈ ms, ∀ r ∈ m.refs, next ≤ r ∧ r < next'
  | [], next, next', subs, ms, h => by
    cases h
    simp
  | i :: t, next, next', subs, ms, h => by
    rw [instructionMachines] at h
    cases h1 : instructionMachine execBus pcBus f next i with
    | error x => rw [h1] at h; cases h
    | ok r =>
      obtain ⟨nx, sb, mm⟩ := r
      rw [h1] at h
      simp only [bind, Except.bind] at h
      cases h2 : instructionMachines execBus pcBus f nx t with
      | error x => rw [h2] at h; cases h
      | ok r =>
        obtain ⟨nx', sbs, mms⟩ := r
        rw [h2] at h
        cases h
        obtain ⟨i1, i2, i3, i4, i5, i6⟩ := instructionMachines_ok h2
        obtain ⟨n, r, s, pc, g0, g1, g2, g3, g4, g5, g6, g7, g8, g9⟩ := instructionMachine_ok h1
        have hn : i.machine.refs.dedup.length = n := by
          have : i.machine.refs.dedup.toFinset = Finset.range n := by
            ext k
            rw [List.mem_toFinset, List.mem_dedup, Finset.mem_range, g3 k]
          rw [← List.toFinset_card_of_nodup (List.nodup_dedup _), this, Finset.card_range]
        refine ⟨.cons ⟨next, nx, h1⟩ i1, by simp [i2], by omega, ?_, ?_, ?_⟩
        · rw [List.flatten_cons, i4, g2, g1, List.range'_append_1]
          congr 1
          omega
        · intro x hx
          rw [List.zip_cons_cons] at hx
          rcases List.mem_cons.1 hx with rfl | hx
          · rw [g2, List.length_range', hn]
          · exact i5 x hx
        · intro m hm r' hr'
          rcases List.mem_cons.1 hm with rfl | hm
          · have key : ∃ k, k < n ∧ r' = k + next := by
              have hsub : ∀ r', r' ∈ ((i.machine.convert f).mapRefs (· + next)).refs →
                  ∃ k, k < n ∧ r' = k + next := by
                intro r' hr'
                rw [mapRefs_refs, convert_refs] at hr'
                obtain ⟨k, hk, rfl⟩ := List.mem_map.1 hr'
                exact ⟨k, (g3 k).1 hk, rfl⟩
              have hbus : ∀ b ∈ (i.machine.convert f).bus, ∀ e ∈ b.mult :: b.args,
                  ∀ r' ∈ (e.mapRefs (· + next)).refs, ∃ k, k < n ∧ r' = k + next := by
                intro b hb e he r' hr'
                refine hsub r' (List.mem_flatMap.2 ⟨e.mapRefs (· + next),
                  List.mem_append_right _ (List.mem_flatMap.2
                    ⟨_, List.mem_map.2 ⟨b, hb, rfl⟩, ?_⟩), hr'⟩)
                rcases List.mem_cons.1 he with rfl | he
                · simp
                · exact List.mem_cons_of_mem _ (List.mem_map.2 ⟨e, he, rfl⟩)
              obtain ⟨e, he, her⟩ := List.mem_flatMap.1 hr'
              rcases List.mem_append.1 he with he | he
              · rw [g9] at he
                rcases List.mem_append.1 he with he | he
                · rcases List.mem_append.1 he with he | he
                  · exact hsub r' (List.mem_flatMap.2 ⟨e, List.mem_append_left _ he, her⟩)
                  · have hr : r ∈ (i.machine.convert f).bus := by
                      have : r ∈ [r, s] := by simp
                      rw [← g4] at this
                      exact (List.mem_filter.1 this).1
                    rw [List.mem_singleton.1 he] at her
                    exact hbus r hr r.mult (by simp) r' (by simpa [AlgExpr.toConstraint, AlgExpr.refs] using her)
                · have hpc : pc ∈ (i.machine.convert f).bus := by
                    have : pc ∈ [pc] := by simp
                    rw [← g5] at this
                    exact (List.mem_filter.1 this).1
                  obtain ⟨x, hx, rfl⟩ := List.mem_map.1 he
                  obtain ⟨a, ha, hxa⟩ := List.mem_map.1 (List.of_mem_zip hx).1
                  refine hbus pc hpc a (by simp [ha]) r' ?_
                  rw [hxa]
                  simpa [AlgExpr.toConstraint, AlgExpr.refs] using her
              · rw [g7] at he
                exact hsub r' (List.mem_flatMap.2 ⟨e, List.mem_append_right _ he, her⟩)
            obtain ⟨k, k1, rfl⟩ := key
            omega
          · have := i6 m hm r' hr'
            omega

theorem foldl_concatenate (t : List (SymMachine (ZMod p) ℕ)) : ∀ m : SymMachine (ZMod p) ℕ,
    (t.foldl SymMachine.concatenate m).constraints = m.constraints ++ t.flatMap (·.constraints) ∧
    (t.foldl SymMachine.concatenate m).bus = m.bus ++ t.flatMap (·.bus) ∧
    ∀ r, r ∈ (t.foldl SymMachine.concatenate m).refs ↔ r ∈ m.refs ∨ ∃ x ∈ t, r ∈ x.refs := by
  induction t with
  | nil => intro m; simp
  | cons a t ih =>
    intro m
    obtain ⟨h1, h2, h3⟩ := ih (m.concatenate a)
    refine ⟨?_, ?_, ?_⟩
    · rw [List.foldl_cons, h1]; simp [SymMachine.concatenate]
    · rw [List.foldl_cons, h2]; simp [SymMachine.concatenate]
    · intro r
      rw [List.foldl_cons, h3, concatenate_refs]
      simp [or_assoc]

theorem blockMachine_ok {is : List (InstrAir U)} {m : SymMachine (ZMod p) ℕ} {a : ColumnAllocator}
    (h : blockMachine execBus pcBus f is = .ok (m, a)) :
    ∃ ms, instructionMachines execBus pcBus f 0 is = .ok (a.nextPolyId, a.subs, ms) ∧
      m.constraints = ms.flatMap (·.constraints) ∧ m.bus = ms.flatMap (·.bus) ∧
      ∀ r, r ∈ m.refs ↔ ∃ x ∈ ms, r ∈ x.refs := by
  unfold blockMachine at h
  cases h1 : instructionMachines execBus pcBus f 0 is with
  | error x => rw [h1] at h; cases h
  | ok r =>
    obtain ⟨n, subs, ms⟩ := r
    rw [h1] at h
    simp only [bind, Except.bind] at h
    cases ms with
    | nil => cases h
    | cons x t =>
      cases h
      obtain ⟨h1, h2, h3⟩ := foldl_concatenate t x
      refine ⟨x :: t, rfl, ?_, ?_, ?_⟩
      · rw [h1]; simp
      · rw [h2]; simp
      · intro r; rw [h3]; simp

theorem globalize_exists {T : Type} {m : SymMachine T ℕ} {next n : ℕ} (hn : 0 < n)
    (h : ∀ k, k ∈ m.refs ↔ k < n) :
    globalizeReferences m next = .ok (next + n, List.range' next n, m.mapRefs (· + next)) := by
  have heq : m.refs.dedup.toFinset = Finset.range n := by
    ext k
    rw [List.mem_toFinset, List.mem_dedup, Finset.mem_range, h k]
  have hlen : m.refs.dedup.length = n := by
    rw [← List.toFinset_card_of_nodup (List.nodup_dedup _), heq, Finset.card_range]
  unfold globalizeReferences
  simp only [hlen]
  have hm : ∀ k, k ∈ m.refs.dedup ↔ k < n := fun k => by rw [List.mem_dedup, h k]
  cases hd : m.refs.dedup with
  | nil =>
    rw [hd] at hlen
    simp at hlen
    omega
  | cons i t =>
    rw [hd] at hm
    simp only
    rw [if_neg]
    rw [not_not]
    have h1 : n - 1 ≤ t.foldl max i := by
      have := (hm (n - 1)).2 (by omega)
      rcases List.mem_cons.1 this with h2 | h2
      · rw [h2]; exact (le_foldl_max t i).1
      · exact (le_foldl_max t i).2 _ h2
    have h2 : ∀ (t : List ℕ) (i : ℕ), t.foldl max i = i ∨ t.foldl max i ∈ t := by
      intro t
      induction t with
      | nil => intro i; simp
      | cons b t ih =>
        intro i
        rw [List.foldl_cons]
        rcases ih (max i b) with h | h
        · rw [h]
          rcases max_choice i b with h | h <;> simp [h]
        · exact .inr (List.mem_cons_of_mem _ h)
    have h3 : t.foldl max i < n := (hm _).1 <| by
      rcases h2 t i with h | h
      · rw [h]; simp
      · exact List.mem_cons_of_mem _ h
    omega

theorem instructionMachine_exists {i : InstrAir U} {next : ℕ} :
    (∃ r, instructionMachine execBus pcBus f next i = .ok r) ↔
      (∃ n, 0 < n ∧ ∀ k, k ∈ i.machine.refs ↔ k < n) ∧
      (i.machine.bus.filter fun b => b.id = execBus).length = 2 ∧
      ∃ pc, (i.machine.bus.filter fun b => b.id = pcBus) = [pc] ∧
        pc.args.length = i.pcLookupRow.length := by
  have hfilt : ∀ k, ((i.machine.convert f).bus.filter fun b => b.id = k) =
      (i.machine.bus.filter fun b => b.id = k).map
        fun b => ⟨b.id, b.mult.convert f, b.args.map (AlgExpr.convert f)⟩ := by
    intro k
    simp only [SymMachine.convert, List.filter_map]
    rfl
  constructor
  · rintro ⟨⟨next', subs, m⟩, h⟩
    obtain ⟨n, r, s, pc, h0, h1, h2, h3, h4, h5, h6, _⟩ := instructionMachine_ok h
    refine ⟨⟨n, h0, h3⟩, ?_, ?_⟩
    · rw [hfilt] at h4
      have := congrArg List.length h4
      simpa using this
    · rw [hfilt] at h5
      obtain ⟨b, hb, rfl⟩ := List.map_eq_singleton_iff.1 h5
      exact ⟨b, hb, by simpa using h6⟩
  · rintro ⟨⟨n, h0, h1⟩, h2, pc, h3, h4⟩
    have hm : ∀ k, (((i.machine.convert f).mapRefs (· + next)).bus.filter fun b => b.id = k) =
      ((i.machine.bus.filter fun b => b.id = k).map
        fun b => (⟨b.id, b.mult.convert f, b.args.map (AlgExpr.convert f)⟩ : SymBus (ZMod p) ℕ)).map
        fun b => ⟨b.id, b.mult.mapRefs (· + next), b.args.map (AlgExpr.mapRefs (· + next))⟩ := by
      intro k
      rw [← hfilt]
      simp only [SymMachine.mapRefs, List.filter_map]
      rfl
    unfold instructionMachine
    rw [globalize_exists h0 (by intro k; rw [convert_refs]; exact h1 k)]
    simp only [bind, Except.bind, hm, h3, List.map_cons, List.map_nil]
    obtain ⟨r, s, hrs⟩ := List.length_eq_two.1 h2
    unfold execReceive
    simp only [hm, hrs, List.map_cons, List.map_nil]
    rw [if_neg (by simp [h4])]
    exact ⟨_, rfl⟩

theorem instructionMachines_exists : ∀ {is : List (InstrAir U)} {next : ℕ},
    (∃ r, instructionMachines execBus pcBus f next is = .ok r) ↔
      ∀ i ∈ is, ∃ r, instructionMachine execBus pcBus f 0 i = .ok r
  | [], next => by simp [instructionMachines]
  | i :: t, next => by
    have h0 : (∃ r, instructionMachine execBus pcBus f 0 i = .ok r) ↔
        ∃ r, instructionMachine execBus pcBus f next i = .ok r := by
      rw [instructionMachine_exists, instructionMachine_exists]
    rw [List.forall_mem_cons, h0, instructionMachines]
    constructor
    · rintro ⟨r, h⟩
      cases h1 : instructionMachine execBus pcBus f next i with
      | error x => rw [h1] at h; cases h
      | ok r1 =>
        obtain ⟨nx, sb, mm⟩ := r1
        rw [h1] at h
        simp only [bind, Except.bind] at h
        cases h2 : instructionMachines execBus pcBus f nx t with
        | error x => rw [h2] at h; cases h
        | ok r2 => exact ⟨⟨_, rfl⟩, instructionMachines_exists.1 ⟨_, h2⟩⟩
    · rintro ⟨⟨⟨nx, sb, mm⟩, h1⟩, h2⟩
      obtain ⟨⟨nx', sbs, ms⟩, h3⟩ := (instructionMachines_exists (next := nx)).2 h2
      rw [h1]
      simp only [bind, Except.bind]
      rw [h3]
      exact ⟨_, rfl⟩

end

end Verif
