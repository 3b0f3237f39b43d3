import Verif.Proofs.Reachability
import Verif.Proofs.Indexed
import Verif.Props.ConstraintSystem

/-! # Property C23: the index of a constraint system and the queue of pending constraints -/

namespace Verif

open GExpr

set_option linter.unusedSectionVars false

variable {p : ℕ} [Fact p.Prime] {V : Type} [LinearOrder V]

/-- C23: after any history, looking up the constraints that reference some variables does not panic,
returns every constraint of the system that mentions one of them, and returns only constraints of
the system. -/
theorem C23_lookup_complete (s : ConstraintSystem p V) (ops : List (IndexedOp p V))
    (vs : List V) :
    ∃ l, (indexedHistory s ops).constraintsReferencing vs = .ok l ∧
      (∀ c : ConstraintRef p V, c.In (indexedHistory s ops).sys → (∃ v ∈ vs, c.Mentions v) →
        c ∈ l) ∧
      ∀ c ∈ l, c.In (indexedHistory s ops).sys := by
  have hi := Indexed.inv_history s ops
  refine ⟨_, Indexed.constraintsReferencing_ok hi vs, ?_, ?_⟩
  · rintro c hc ⟨v, hv, hm⟩
    obtain ⟨x, hx⟩ := in_iff_refAt.1 hc
    refine List.mem_filterMap.2 ⟨x, ?_, hx⟩
    exact Indexed.mem_itemsReferencing.2 ⟨v, hv, hi.complete v x (occursIn_of_refAt hx hm)⟩
  · intro c hc
    obtain ⟨x, -, hx⟩ := List.mem_filterMap.1 hc
    exact in_iff_refAt.2 ⟨x, hx⟩

/-- C23: right after indexing a system, the look-up returns nothing else. -/
theorem C23_lookup_exact_initially (s : ConstraintSystem p V) (vs : List V)
    (l : List (ConstraintRef p V)) (h : (Indexed.ofSystem s).constraintsReferencing vs = .ok l)
    (c : ConstraintRef p V) : c ∈ l ↔ c.In s ∧ ∃ v ∈ vs, c.Mentions v := by
  obtain ⟨l', h1, h2, h3⟩ := C23_lookup_complete s [] vs
  rw [show indexedHistory s [] = Indexed.ofSystem s from rfl] at h1
  have h' := h1
  rw [h] at h1
  cases h1
  refine ⟨fun hc => ⟨h3 c hc, ?_⟩, fun hc => h2 c hc.1 hc.2⟩
  rw [Indexed.constraintsReferencing_ok (Indexed.inv_ofSystem s)] at h
  cases h
  obtain ⟨x, hx, hr⟩ := List.mem_filterMap.1 hc
  obtain ⟨v, hv, ho⟩ := Indexed.mem_itemsReferencing.1 hx
  refine ⟨v, hv, ?_⟩
  have ho := mem_variableOccurrences.1 ho
  cases x with
  | alg i =>
    obtain ⟨e, he, ho⟩ := ho
    simp only [refAt] at hr
    have he : s.algebraic[i]? = some e := he
    rw [show (Indexed.ofSystem s).sys = s from rfl, he] at hr
    cases hr
    exact ho
  | bus i =>
    obtain ⟨e, he, ho⟩ := ho
    simp only [refAt] at hr
    have he : s.bus[i]? = some e := he
    rw [show (Indexed.ofSystem s).sys = s from rfl, he] at hr
    cases hr
    exact ho
  | derived i => cases hr

/-- C23: after any history, substituting a variable by an expression through the index gives the
system in which it is substituted in every expression. -/
theorem C23_subst_everywhere (s : ConstraintSystem p V) (ops : List (IndexedOp p V)) (x : V)
    (r : GExpr p V) :
    ((indexedHistory s ops).subst x r).sys =
      (indexedHistory s ops).sys.mapExpr (GExpr.subst x r) :=
  Indexed.subst_sys (Indexed.inv_history s ops) x r

/-- C23: substitution in a whole system by a list of substitutions substitutes everywhere, in the
order of the list. -/
theorem C23_substs_everywhere (s : ConstraintSystem p V) (l : List (V × GExpr p V)) :
    applySubstitutions s l = l.foldl (fun s x => s.mapExpr (GExpr.subst x.1 x.2)) s := by
  unfold applySubstitutions Indexed.applySubsts
  have key : ∀ t : Indexed p V, t.Inv →
      (l.foldl (fun s x => s.subst x.1 x.2) t).sys =
        l.foldl (fun s x => s.mapExpr (GExpr.subst x.1 x.2)) t.sys := by
    induction l with
    | nil => exact fun t _ => rfl
    | cons y l ih =>
      intro t ht
      rw [List.foldl_cons, List.foldl_cons, ih _ (Indexed.inv_subst ht y.1 y.2),
        Indexed.subst_sys ht]
  exact key _ (Indexed.inv_ofSystem s)

/-- The same for a list of expressions. -/
theorem C23_substs_expressions (es : List (GExpr p V)) (l : List (V × GExpr p V)) :
    applySubstitutionsToExpressions es l =
      es.map fun e => l.foldl (fun e x => GExpr.subst x.1 x.2 e) e := by
  unfold applySubstitutionsToExpressions
  rw [C23_substs_everywhere]
  induction l generalizing es with
  | nil => simp
  | cons y l ih =>
    rw [List.foldl_cons]
    rw [show (⟨es, [], []⟩ : ConstraintSystem p V).mapExpr (GExpr.subst y.1 y.2) =
      ⟨es.map (GExpr.subst y.1 y.2), [], []⟩ from rfl, ih]
    simp [List.map_map, Function.comp_def]

theorem substKnown_eval_of_not_mem {x : V} {k : ZMod p} {e : GExpr p V} (σ : V → ZMod p)
    (h : ¬ Occurs x e) : eval σ e = eval (Function.update σ x k) e := by
  apply eval_congr
  intro v hv
  rw [Function.update_of_ne]
  rintro rfl
  exact h (mem_vars_iff_occurs.1 hv)

/-- C23: after any history, substituting a variable by a value through the index gives a system of
the same size, whose expressions have the value they had before when the variable is given
that value. -/
theorem C23_substKnown_everywhere (s : ConstraintSystem p V) (ops : List (IndexedOp p V)) (x : V)
    (k : ZMod p) (hw : (indexedHistory s ops).sys.WF) (σ : V → ZMod p) :
    (((indexedHistory s ops).substKnown x k).sys.algebraic.map (eval σ) =
      (indexedHistory s ops).sys.algebraic.map (eval (Function.update σ x k))) ∧
    ((indexedHistory s ops).substKnown x k).sys.bus.map (BusInteraction.evalAt σ) =
      (indexedHistory s ops).sys.bus.map (BusInteraction.evalAt (Function.update σ x k)) := by
  have hi := Indexed.inv_history s ops
  generalize indexedHistory s ops = t at *
  obtain ⟨h1, h2, -⟩ := mapItem_foldl (GExpr.substKnown x k) (hi.sorted x).nodup t.sys
  constructor
  · apply List.ext_getElem?
    intro i
    rw [List.getElem?_map, List.getElem?_map]
    have h1 := h1 i
    change (t.substKnown x k).sys.algebraic[i]? = _ at h1
    rw [h1]
    cases he : t.sys.algebraic[i]? with
    | none => simp
    | some e =>
      split
      · simp only [Option.map_some, Option.some.injEq]
        exact eval_substKnown σ x k (hw.1 e (List.mem_iff_getElem?.2 ⟨i, he⟩))
      · rename_i hn
        simp only [Option.map_some, Option.some.injEq]
        exact substKnown_eval_of_not_mem σ fun ho => hn (hi.complete x (.alg i) ⟨e, he, ho⟩)
  · apply List.ext_getElem?
    intro i
    rw [List.getElem?_map, List.getElem?_map]
    have h2 := h2 i
    change (t.substKnown x k).sys.bus[i]? = _ at h2
    rw [h2]
    cases he : t.sys.bus[i]? with
    | none => simp
    | some b =>
      have hwb := hw.2 b (List.mem_iff_getElem?.2 ⟨i, he⟩)
      split
      · simp only [Option.map_some, Option.some.injEq, BusInteraction.evalAt, BusInteraction.map,
          List.map_map]
        rw [eval_substKnown σ x k (hwb b.busId (by simp [BusInteraction.fields])),
          eval_substKnown σ x k (hwb b.multiplicity (by simp [BusInteraction.fields]))]
        congr 1
        apply List.map_congr_left
        intro e hb
        exact eval_substKnown σ x k (hwb _ (by simp [BusInteraction.fields, hb]))
      · rename_i hn
        simp only [Option.map_some, Option.some.injEq, BusInteraction.evalAt]
        have key : ∀ e ∈ b.fields, eval σ e = eval (Function.update σ x k) e := fun e hb =>
          substKnown_eval_of_not_mem σ fun ho => hn (hi.complete x (.bus i) ⟨b, he, e, hb, ho⟩)
        rw [key _ (by simp [BusInteraction.fields]), key b.multiplicity
          (by simp [BusInteraction.fields])]
        congr 1
        exact List.map_congr_left fun e hb => key e (by simp [BusInteraction.fields, hb])

/-- C23: retaining keeps, in their order, exactly the constraints for which the function returns
true (the function may depend on the position). -/
theorem C23_retain_exact (s : Indexed p V) (f : GExpr p V → Bool)
    (g : BusInteraction (GExpr p V) → Bool) :
    (s.retainAlgebraic fun _ => f).sys = { s.sys with algebraic := s.sys.algebraic.filter f } ∧
    (s.retainBus fun _ => g).sys = { s.sys with bus := s.sys.bus.filter g } := by
  have key : ∀ {α : Type} (f : α → Bool) (l : List α) (n : ℕ),
      Indexed.retainFrom (fun _ => f) n l = l.filter f := by
    intro α f l
    induction l with
    | nil => exact fun n => rfl
    | cons a t ih =>
      intro n
      rw [Indexed.retainFrom, ih, List.filter_cons]
  exact ⟨by simp only [Indexed.retainAlgebraic, key], by simp only [Indexed.retainBus, key]⟩

/-- C23: in every history of operations on a system with a queue, a constraint of the system is
either still in the queue or was returned by `pop_front` in exactly its present form: no
change of a constraint is missed. -/
theorem C23_queue_complete (popped : List (ConstraintRef p V)) (s : Queued p V)
    (h : QueueRun popped s) (c : ConstraintRef p V) (hc : c.In s.ix.sys) :
    c ∈ popped ∨ ∃ item ∈ s.queue.queue, item.toRef s.ix.sys = .ok (some c) := by
  obtain ⟨hi, hcov⟩ := queueRun_spec h
  obtain ⟨x, hx⟩ := in_iff_refAt.1 hc
  rcases hcov x c hx with h' | h'
  · right
    refine ⟨x, h', ?_⟩
    rw [toRef_ok (refAt_inBounds hx).1, hx]
  · exact Or.inl h'

/-- C23: once `pop_front` returns nothing, every constraint of the system has been returned by it in
its present form. -/
theorem C23_queue_drained (popped : List (ConstraintRef p V)) (s s' : Queued p V)
    (h : QueueRun popped s) (hd : s.popFront = .ok (none, s')) (c : ConstraintRef p V)
    (hc : c.In s.ix.sys) : c ∈ popped := by
  obtain ⟨hi, hcov⟩ := queueRun_spec h
  obtain ⟨x, hx⟩ := in_iff_refAt.1 hc
  rcases Queued.popFront_ok hi with ⟨h1, -⟩ | ⟨x, c', s1, h1, -⟩
  · rcases hcov x c hx with h' | h'
    · rw [h1] at h'; cases h'
    · exact h'
  · rw [hd] at h1; cases h1

/-- C23: after a variable is reported as updated, all constraints that mention it are pending. -/
theorem C23_updated_is_queued (popped : List (ConstraintRef p V)) (s s' : Queued p V) (v : V)
    (h : QueueRun popped s) (hu : s.variableUpdated v = .ok s') (c : ConstraintRef p V)
    (hc : c.In s'.ix.sys) (hm : c.Mentions v) :
    ∃ item ∈ s'.queue.queue, item.toRef s'.ix.sys = .ok (some c) := by
  obtain ⟨hi, -⟩ := queueRun_spec h
  obtain ⟨s1, h1, h2, h3, h4⟩ := Queued.variableUpdated_ok hi v
  rw [hu] at h1
  cases h1
  obtain ⟨x, hx⟩ := in_iff_refAt.1 hc
  refine ⟨x, (h4 x).2 (Or.inl ⟨?_, (refAt_inBounds hx).2⟩), ?_⟩
  · rw [h2] at hx
    exact hi.ix.complete v x (occursIn_of_refAt hx hm)
  · rw [toRef_ok (refAt_inBounds hx).1, hx]

/-- C23: no operation on a system with queue panics, whatever the history. -/
theorem C23_queue_no_panic (popped : List (ConstraintRef p V)) (s : Queued p V)
    (h : QueueRun popped s) :
    (∃ r, s.popFront = .ok r) ∧ (∀ v, ∃ r, s.variableUpdated v = .ok r) ∧
    (∀ x e, ∃ r, s.subst x e = .ok r) ∧ (∀ cs, ∃ r, s.addAlgebraic cs = .ok r) ∧
    (∀ bs, ∃ r, s.addBus bs = .ok r) ∧ (∀ f, ∃ r, s.retainAlgebraic f = .ok r) ∧
    (∀ f, ∃ r, s.retainBus f = .ok r) ∧
    ∀ t : ConstraintSystem p V, ∃ r, Queued.ofSystem t = .ok r := by
  obtain ⟨hi, -⟩ := queueRun_spec h
  refine ⟨?_, fun v => ?_, fun x e => ?_, fun cs => ?_, fun bs => ?_, fun f => ?_, fun f => ?_,
    fun t => ?_⟩
  · rcases Queued.popFront_ok hi with ⟨-, h1⟩ | ⟨x, c', s1, h1, -⟩
    · exact ⟨_, h1⟩
    · exact ⟨_, h1⟩
  · obtain ⟨r, hr, -⟩ := Queued.variableUpdated_ok hi v; exact ⟨r, hr⟩
  · obtain ⟨r, hr, -⟩ := Queued.subst_ok hi x e; exact ⟨r, hr⟩
  · obtain ⟨r, hr, -⟩ := Queued.addAlgebraic_ok hi cs; exact ⟨r, hr⟩
  · obtain ⟨r, hr, -⟩ := Queued.addBus_ok hi bs; exact ⟨r, hr⟩
  · obtain ⟨r, hr, -⟩ := Queued.retainAlgebraic_ok hi f; exact ⟨r, hr⟩
  · obtain ⟨r, hr, -⟩ := Queued.retainBus_ok hi f; exact ⟨r, hr⟩
  · obtain ⟨r, hr, -⟩ := Queued.ofSystem_ok t; exact ⟨r, hr⟩

/-! A concrete history: substitute, remove, extend. -/

def sampleSystem : ConstraintSystem 17 ℕ :=
  ⟨[var 0 - var 1, mul (var 0) (var 2)], [⟨const 5, const 1, [var 1]⟩], []⟩

def sampleHistory : List (IndexedOp 17 ℕ) :=
  [.subst 0 (var 1 + const 1), .retainAlgebraic (fun i _ => i == 1), .extend ⟨[var 2], [], []⟩]

example : (indexedHistory sampleSystem sampleHistory).constraintsReferencing [2] =
    .ok [.alg (mul (var 1 + const 1) (var 2)), .alg (var 2)] := by rfl
example : (indexedHistory sampleSystem sampleHistory).sys.WF := by
  constructor
  · intro e he
    have : (indexedHistory sampleSystem sampleHistory).sys.algebraic =
      [mul (var 1 + const 1) (var 2), var 2] := by rfl
    rw [this] at he
    simp only [List.mem_cons, List.not_mem_nil, or_false] at he
    rcases he with rfl | rfl
    · exact wf_mul (wf_add (wf_var 1) (wf_const 1)) (wf_var 2)
    · exact wf_var 2
  · intro b hb
    have : (indexedHistory sampleSystem sampleHistory).sys.bus = [⟨const 5, const 1, [var 1]⟩] := by
      rfl
    rw [this] at hb
    simp only [List.mem_cons, List.not_mem_nil, or_false] at hb
    subst hb
    intro e he
    simp only [BusInteraction.fields, List.mem_cons, List.not_mem_nil, or_false] at he
    rcases he with rfl | rfl | rfl
    · exact wf_const _
    · exact wf_const _
    · exact wf_var 1

/-- A history in which one constraint was popped and is then queued again by a substitution. -/
theorem sampleQueueRun : ∃ s : Queued 17 ℕ, QueueRun [.alg (var 0 - var 1)] s ∧
    s.queue.queue = [.alg 1, .bus 0, .alg 0] := by
  obtain ⟨s0, h0⟩ : ∃ s, Queued.ofSystem sampleSystem = .ok s := ⟨_, rfl⟩
  have e0 := QueueRun.ofSystem _ _ h0
  cases h0
  have e1 := QueueRun.pop _ _ _ _ e0 (by rfl)
  have e2 := QueueRun.subst _ _ _ 0 (var 2) e1 (by rfl)
  exact ⟨_, e2, rfl⟩

end Verif
