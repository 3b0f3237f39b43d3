import Verif.Spec.Memory
import Verif.Props.Solver
import Verif.Proofs.RangeOptimizer
import Mathlib.Algebra.BigOperators.Group.Finset.Basic
import Mathlib.Algebra.BigOperators.Fin

set_option linter.unusedSectionVars false

/-! # The memory optimizer -/

namespace Verif

open GExpr

variable {p : ℕ} [Fact p.Prime] {V : Type} [LinearOrder V]

theorem runOps_append {h : Handler p} : ∀ {ops ops' : List (SolverOp p V)} {s s1 s2 : Solver p V}
    {outs outs' : List (SolverOut p V)}, runOps h ops s = .ok (outs, s1) →
    runOps h ops' s1 = .ok (outs', s2) → runOps h (ops ++ ops') s = .ok (outs ++ outs', s2)
  | [], ops', s, s1, s2, outs, outs', h1, h2 => by cases h1; exact h2
  | op :: ops, ops', s, s1, s2, outs, outs', h1, h2 => by
    rw [runOps] at h1
    rw [List.cons_append, runOps]
    cases h3 : op.run h s with
    | error x => rw [h3] at h1; cases h1
    | ok r =>
      rw [h3, Solver.stop_bind] at h1
      rw [Solver.stop_bind]
      cases h4 : runOps h ops r.2 with
      | error x => rw [h4] at h1; cases h1
      | ok r2 =>
        rw [h4] at h1
        cases h1
        rw [runOps_append h4 h2]
        rfl

theorem Solver.MadeFor.run {bus : Bus p} {h : Handler p} (hs : h.Sound bus)
    {A : (V → ZMod p) → Prop} {s s' : Solver p V} (hm : s.MadeFor bus h A) {op : SolverOp p V}
    (hw : op.WF) {out : SolverOut p V} (hr : op.run h s = .ok (out, s'))
    (hh : ∀ σ, A σ → op.Holds bus σ) :
    s'.MadeFor bus h A ∧ ∀ σ, A σ → op.Answer σ out := by
  obtain ⟨ops, outs, h1, h2, h3⟩ := hm
  have h4 : runOps h [op] s = .ok ([out], s') := by
    rw [runOps, hr]; rfl
  have h5 := runOps_append h2 h4
  have hw' : ∀ o ∈ ops ++ [op], o.WF := by
    intro o ho
    rcases List.mem_append.1 ho with ho | ho
    · exact h1 o ho
    · rw [List.mem_singleton.1 ho]; exact hw
  have hh' : ∀ σ, A σ → ∀ o ∈ ops ++ [op], o.Holds bus σ := by
    intro σ hσ o ho
    rcases List.mem_append.1 ho with ho | ho
    · exact h3 σ hσ o ho
    · rw [List.mem_singleton.1 ho]; exact hh σ hσ
  refine ⟨⟨_, _, hw', h5, hh'⟩, fun σ hσ => ?_⟩
  have h6 := C21_answers_correct bus h hs _ hw' _ _ h5 σ (hh' σ hσ)
  have h7 := (C21_answers_correct bus h hs _ h1 _ _ h2 σ (h3 σ hσ)).length_eq
  have h8 := List.forall₂_drop ops.length h6
  rw [List.drop_left, h7, List.drop_left] at h8
  cases h8 with
  | cons h9 _ => exact h9

theorem Solver.MadeFor.mono {bus : Bus p} {h : Handler p} {A B : (V → ZMod p) → Prop}
    {s : Solver p V} (hm : s.MadeFor bus h A) (hAB : ∀ σ, B σ → A σ) : s.MadeFor bus h B := by
  obtain ⟨ops, outs, h1, h2, h3⟩ := hm
  exact ⟨ops, outs, h1, h2, fun σ hσ => h3 σ (hAB σ hσ)⟩

/-! ### What the loop finds -/

theorem memConversion_memory {id : ℕ} {b : BusInteraction (GExpr p V)} {m : MemInt p V}
    (h : memConversion id b = .ok (.memory m)) :
    b.busId = const (id : ZMod p) ∧
    ((m.op = .setNew ∧ b.multiplicity = const 1) ∨
      (m.op = .getPrevious ∧ b.multiplicity = const (-1) ∧ (-1 : ZMod p) ≠ 1)) ∧
    b.payload = const m.space :: m.pointer :: (m.data ++ [m.timestamp]) := by
  unfold memConversion at h
  split at h
  · cases h
  · rename_i bid hbid
    split at h
    · rename_i hid
      simp only at h
      split at h
      · cases h
      · rename_i op hop
        split at h
        · rename_i space pointer rest hpl
          split at h
          · cases h
          · rename_i ts hts
            split at h
            · cases h
            · rename_i sp hsp
              cases h
              have e1 := tryToNumber_eq hbid
              have e2 := tryToNumber_eq hsp
              refine ⟨by rw [e1, hid], ?_, ?_⟩
              · split at hop
                · rename_i n hn
                  have e3 := tryToNumber_eq hn
                  split at hop
                  · rename_i h1
                    cases hop
                    exact Or.inl ⟨rfl, by rw [e3, h1]⟩
                  · split at hop
                    · rename_i h1 h2
                      cases hop
                      exact Or.inr ⟨rfl, by rw [e3, h2], by rw [← h2]; exact h1⟩
                    · cases hop
                · cases hop
              · simp only
                rw [hpl, e2, List.dropLast_append_getLast? ts hts]
        · cases h
    · cases h

theorem memConversion_notMemory {id : ℕ} {b : BusInteraction (GExpr p V)}
    (h : memConversion id b = .ok .notMemory) (σ : V → ZMod p) : eval σ b.busId ≠ (id : ZMod p) := by
  unfold memConversion at h
  split at h
  · cases h
  · rename_i bid hbid
    split at h
    · simp only at h
      split at h
      · cases h
      · split at h
        · split at h
          · cases h
          · split at h <;> cases h
        · cases h
    · rename_i hid
      rw [eval_of_tryToNumber hbid]
      exact hid

/-- The interaction does not set the memory at address `a`. -/
def Quiet (A : (V → ZMod p) → Prop) (id : ℕ) (bs : List (BusInteraction (GExpr p V)))
    (a : ZMod p × GExpr p V) (k : ℕ) : Prop :=
  ∃ b, bs[k]? = some b ∧ (memConversion id b = .ok .notMemory ∨
    ∃ m, memConversion id b = .ok (.memory m) ∧
      (m.op = .setNew → ∀ σ, A σ → (m.space, eval σ m.pointer) ≠ (a.1, eval σ a.2)))

structure MemPair (p : ℕ) (V : Type) where
  i : ℕ
  j : ℕ
  mi : MemInt p V
  mj : MemInt p V

/-- A matching pair of "set new" and "get previous". -/
structure MemPair.Ok (A : (V → ZMod p) → Prop) (id : ℕ) (bs : List (BusInteraction (GExpr p V)))
    (x : MemPair p V) : Prop where
  lt : x.i < x.j
  set : ∃ b, bs[x.i]? = some b ∧ memConversion id b = .ok (.memory x.mi)
  setOp : x.mi.op = .setNew
  get : ∃ b, bs[x.j]? = some b ∧ memConversion id b = .ok (.memory x.mj)
  getOp : x.mj.op = .getPrevious
  space : x.mi.space = x.mj.space
  pointer : x.mi.pointer = x.mj.pointer
  length : x.mi.data.length = x.mj.data.length
  quiet : ∀ k, x.i < k → k < x.j → Quiet A id bs (x.mi.space, x.mi.pointer) k

def MemPair.indices (x : MemPair p V) : List ℕ := [x.j, x.i]

def MemPair.constraints (x : MemPair p V) : List (GExpr p V) :=
  (x.mi.data.zip x.mj.data).map (fun x => sub x.1 x.2) ++ [sub x.mi.timestamp x.mj.timestamp]

structure EntryOk (A : (V → ZMod p) → Prop) (id : ℕ) (bs : List (BusInteraction (GExpr p V)))
    (idx : ℕ) (toRemove : List ℕ) (x : (ZMod p × GExpr p V) × MemContent p V) : Prop where
  lt : x.2.busIndex < idx
  int : ∃ b mi, bs[x.2.busIndex]? = some b ∧ memConversion id b = .ok (.memory mi) ∧
    mi.op = .setNew ∧ (mi.space, mi.pointer) = x.1 ∧ x.2.data = mi.data ∧
    x.2.timestamp = mi.timestamp
  quiet : ∀ k, x.2.busIndex < k → k < idx → Quiet A id bs x.1 k
  kept : x.2.busIndex ∉ toRemove

structure LoopInv (bus : Bus p) (h : Handler p) (A : (V → ZMod p) → Prop) (id : ℕ)
    (bs : List (BusInteraction (GExpr p V))) (idx : ℕ) (st : MemState p V) : Prop where
  solver : st.solver.MadeFor bus h A
  keys : (st.contents.map Prod.fst).Nodup
  entries : ∀ x ∈ st.contents, EntryOk A id bs idx st.toRemove x
  pairs : ∃ P : List (MemPair p V), st.toRemove = P.flatMap MemPair.indices ∧
    st.newConstraints = P.flatMap MemPair.constraints ∧ ∀ x ∈ P, x.Ok A id bs
  nodup : st.toRemove.Nodup
  below : ∀ k ∈ st.toRemove, k < idx

theorem addressesDiffer_spec {bus : Bus p} {h : Handler p} (hs : h.Sound bus)
    {A : (V → ZMod p) → Prop} {a b : ZMod p × GExpr p V} (ha : WF a.2) (hb : WF b.2)
    {s s' : Solver p V} (hm : s.MadeFor bus h A) {d : Bool}
    (hr : addressesDiffer h a b s = .ok (d, s')) :
    s'.MadeFor bus h A ∧ (d = true → ∀ σ, A σ → (a.1, eval σ a.2) ≠ (b.1, eval σ b.2)) := by
  unfold addressesDiffer at hr
  cases h1 : SolverOp.run h s (.knownDifferent (const a.1) (const b.1)) with
  | error x => rw [h1] at hr; cases hr
  | ok r =>
    obtain ⟨o, s1⟩ := r
    obtain ⟨m1, a1⟩ := hm.run hs (op := .knownDifferent (const a.1) (const b.1))
      ⟨wf_const _, wf_const _⟩ h1 (fun _ _ => trivial)
    rw [h1, Solver.stop_bind] at hr
    have rest : (do
        let r ← SolverOp.run h s1 (.knownDifferent a.2 b.2)
        match r with
        | (.different d, s) => pure (d, s)
        | (_, s) => pure (false, s) : Except Stop (Bool × Solver p V)) = .ok (d, s') →
        s'.MadeFor bus h A ∧ (d = true → ∀ σ, A σ → (a.1, eval σ a.2) ≠ (b.1, eval σ b.2)) := by
      intro hr
      cases h2 : SolverOp.run h s1 (.knownDifferent a.2 b.2) with
      | error x => rw [h2] at hr; cases hr
      | ok r =>
        obtain ⟨o2, s2⟩ := r
        obtain ⟨m2, a2⟩ := m1.run hs (op := .knownDifferent a.2 b.2) ⟨ha, hb⟩ h2
          (fun _ _ => trivial)
        rw [h2, Solver.stop_bind] at hr
        cases o2 with
        | unit => cases hr; exact ⟨m2, by simp⟩
        | assignments l => cases hr; exact ⟨m2, by simp⟩
        | different d' =>
          cases hr
          refine ⟨m2, fun hd σ hσ heq => ?_⟩
          exact a2 σ hσ hd (Prod.mk.inj heq).2
    cases o with
    | unit => exact rest hr
    | assignments l => exact rest hr
    | different d' =>
      cases d' with
      | false => exact rest hr
      | true =>
        cases hr
        refine ⟨m1, fun _ σ hσ heq => ?_⟩
        have := a1 σ hσ rfl
        rw [eval_const, eval_const] at this
        exact this (Prod.mk.inj heq).1

theorem retainDifferent_spec {bus : Bus p} {h : Handler p} (hs : h.Sound bus)
    {A : (V → ZMod p) → Prop} {a : ZMod p × GExpr p V} (ha : WF a.2) :
    ∀ {l l' : List ((ZMod p × GExpr p V) × MemContent p V)} {s s' : Solver p V},
    (∀ x ∈ l, WF x.1.2) → s.MadeFor bus h A → retainDifferent h a l s = .ok (l', s') →
    s'.MadeFor bus h A ∧ l'.Sublist l ∧
      ∀ x ∈ l', ∀ σ, A σ → (a.1, eval σ a.2) ≠ (x.1.1, eval σ x.1.2)
  | [], l', s, s', _, hm, hr => by cases hr; exact ⟨hm, .refl _, by simp⟩
  | (b, c) :: t, l', s, s', hw, hm, hr => by
    rw [retainDifferent] at hr
    cases h1 : addressesDiffer h a b s with
    | error x => rw [h1] at hr; cases hr
    | ok r =>
      obtain ⟨d, s1⟩ := r
      obtain ⟨m1, a1⟩ := addressesDiffer_spec hs ha (hw _ List.mem_cons_self) hm h1
      rw [h1, Solver.stop_bind] at hr
      simp only at hr
      cases h2 : retainDifferent h a t s1 with
      | error x => rw [h2] at hr; cases hr
      | ok r =>
        obtain ⟨t', s2⟩ := r
        obtain ⟨m2, sub, a2⟩ := retainDifferent_spec hs ha
          (fun x hx => hw x (List.mem_cons_of_mem _ hx)) m1 h2
        rw [h2] at hr
        cases hr
        refine ⟨m2, ?_, ?_⟩
        · split
          · exact sub.cons_cons _
          · exact sub.cons _
        · intro x hx
          split at hx
          · rename_i hd
            rcases List.mem_cons.1 hx with rfl | hx
            · exact a1 hd
            · exact a2 x hx
          · exact a2 x hx

theorem mapInsert_keys {K W : Type} [DecidableEq K] {k : K} {w : W} : ∀ {m : List (K × W)},
    (m.map Prod.fst).Nodup → ((mapInsert k w m).map Prod.fst).Nodup ∧
      ∀ x ∈ mapInsert k w m, x = (k, w) ∨ x ∈ m
  | [], _ => by simp [mapInsert]
  | (k', w') :: t, h => by
    rw [mapInsert]
    rw [List.map_cons, List.nodup_cons] at h
    obtain ⟨h1, h2⟩ := mapInsert_keys (k := k) (w := w) h.2
    split
    · rename_i hk
      subst hk
      refine ⟨List.nodup_cons.2 h, fun x hx => ?_⟩
      rcases List.mem_cons.1 hx with rfl | hx
      · exact Or.inl rfl
      · exact Or.inr (List.mem_cons_of_mem _ hx)
    · rename_i hk
      refine ⟨List.nodup_cons.2 ⟨fun hm => ?_, h1⟩, fun x hx => ?_⟩
      · obtain ⟨x, hx, hxk⟩ := List.mem_map.1 hm
        rcases h2 x hx with rfl | hx
        · exact hk hxk
        · exact h.1 (List.mem_map.2 ⟨x, hx, hxk⟩)
      · rcases List.mem_cons.1 hx with rfl | hx
        · exact Or.inr List.mem_cons_self
        · rcases h2 x hx with rfl | hx
          · exact Or.inl rfl
          · exact Or.inr (List.mem_cons_of_mem _ hx)

theorem EntryOk.mono {A : (V → ZMod p) → Prop} {id : ℕ} {bs : List (BusInteraction (GExpr p V))}
    {idx : ℕ} {r : List ℕ} {x : (ZMod p × GExpr p V) × MemContent p V}
    (h : EntryOk A id bs idx r x) (hq : Quiet A id bs x.1 idx) : EntryOk A id bs (idx + 1) r x :=
  ⟨by have := h.lt; omega, h.int, fun k h1 h2 => by
    rcases Nat.lt_succ_iff_lt_or_eq.1 h2 with h3 | h3
    · exact h.quiet k h1 h3
    · rw [h3]; exact hq, h.kept⟩

theorem memoryStep_inv {bus : Bus p} {h : Handler p} (hs : h.Sound bus) {A : (V → ZMod p) → Prop}
    {id : ℕ} {bs : List (BusInteraction (GExpr p V))} (hw : ∀ b ∈ bs, b.WF) {idx : ℕ}
    {st st' : MemState p V} (hi : LoopInv bus h A id bs idx st)
    {b : BusInteraction (GExpr p V)} (hb : bs[idx]? = some b)
    (hr : memoryStep h id idx b st = .ok st') : LoopInv bus h A id bs (idx + 1) st' := by
  unfold memoryStep at hr
  cases hc : memConversion id b with
  | error x => rw [hc] at hr; cases hr
  | ok c =>
    rw [hc] at hr
    simp only [liftPanic, Solver.stop_bind] at hr
    have hbelow : ∀ k ∈ st.toRemove, k < idx + 1 := fun k hk => by have := hi.below k hk; omega
    cases c with
    | notMemory =>
      cases hr
      exact ⟨hi.solver, hi.keys, fun x hx => (hi.entries x hx).mono ⟨b, hb, Or.inl hc⟩, hi.pairs,
        hi.nodup, hbelow⟩
    | unclear =>
      cases hr
      exact ⟨hi.solver, List.nodup_nil, by simp, hi.pairs, hi.nodup, hbelow⟩
    | memory m =>
      simp only at hr
      have hwm : WF m.pointer := by
        have := (memConversion_memory hc).2.2
        refine hw b (List.mem_of_getElem? hb) _ ?_
        unfold BusInteraction.fields
        rw [this]; simp
      cases hop : m.op with
      | getPrevious =>
        rw [hop] at hr
        simp only at hr
        have hq : ∀ a, Quiet A id bs a idx :=
          fun a => ⟨b, hb, Or.inr ⟨m, hc, fun h => by rw [hop] at h; cases h⟩⟩
        cases hg : mapGet (m.space, m.pointer) st.contents with
        | none =>
          rw [hg] at hr
          cases hr
          exact ⟨hi.solver, hi.keys, fun x hx => (hi.entries x hx).mono (hq _), hi.pairs, hi.nodup,
            hbelow⟩
        | some ex =>
          rw [hg] at hr
          simp only at hr
          have hmem := mapGet_mem hg
          have hex := hi.entries _ hmem
          obtain ⟨bi, mi, i1, i2, i3, i4, i5, i6⟩ := hex.int
          simp only at i1 i4 i5 i6
          unfold equalityConstraints at hr
          split at hr
          · cases hr
          · rename_i hlen
            cases hr
            have hlen' := not_not.1 hlen
            refine ⟨hi.solver, ?_, ?_, ?_, ?_, ?_⟩
            · exact hi.keys.sublist (List.Sublist.map _ List.filter_sublist)
            · intro x hx
              obtain ⟨hx1, hx2⟩ := List.mem_filter.1 hx
              have hx' := (hi.entries x hx1).mono (hq _)
              refine ⟨hx'.lt, hx'.int, hx'.quiet, ?_⟩
              intro hmem'
              rcases List.mem_append.1 hmem' with h1 | h1
              · exact hx'.kept h1
              · simp only [List.mem_cons, List.not_mem_nil, or_false] at h1
                have hlt := (hi.entries x hx1).lt
                rcases h1 with h1 | h1
                · omega
                · obtain ⟨bj, mj, j1, j2, -, j4, -⟩ := hx'.int
                  rw [h1, i1] at j1
                  cases j1
                  rw [i2] at j2
                  cases j2
                  rw [← j4, i4] at hx2
                  simp at hx2
            · obtain ⟨P, p1, p2, p3⟩ := hi.pairs
              refine ⟨P ++ [⟨ex.busIndex, idx, mi, m⟩], ?_, ?_, ?_⟩
              · simp only [p1, List.flatMap_append, List.flatMap_cons, List.flatMap_nil,
                  List.append_nil, MemPair.indices]
              · simp only [p2, List.flatMap_append, List.flatMap_cons, List.flatMap_nil,
                  List.append_nil, MemPair.constraints, i5, i6]
              · intro x hx
                rcases List.mem_append.1 hx with hx | hx
                · exact p3 x hx
                · rw [List.mem_singleton.1 hx]
                  exact ⟨hex.lt, ⟨bi, i1, i2⟩, i3, ⟨b, hb, hc⟩, hop, (Prod.mk.inj i4).1,
                    (Prod.mk.inj i4).2, by rw [← i5]; exact hlen', by
                      simp only [i4]; exact hex.quiet⟩
            · rw [List.nodup_append]
              refine ⟨hi.nodup, ?_, ?_⟩
              · have := hex.lt
                simp only at this
                simp only [List.nodup_cons, List.mem_singleton, List.not_mem_nil, not_false_eq_true,
                  List.nodup_nil, and_true]
                omega
              · intro k hk k' hk'
                simp only [List.mem_cons, List.not_mem_nil, or_false] at hk'
                rcases hk' with rfl | rfl
                · have := hi.below k hk; omega
                · rintro rfl; exact hex.kept hk
            · intro k hk
              rcases List.mem_append.1 hk with hk | hk
              · exact hbelow k hk
              · simp only [List.mem_cons, List.not_mem_nil, or_false] at hk
                have := hex.lt
                simp only at this
                omega
      | setNew =>
        rw [hop] at hr
        simp only at hr
        cases hrd : retainDifferent h (m.space, m.pointer) st.contents st.solver with
        | error x => rw [hrd] at hr; cases hr
        | ok r =>
          obtain ⟨l', s'⟩ := r
          have hwl : ∀ x ∈ st.contents, WF x.1.2 := by
            intro x hx
            obtain ⟨bi, mi, i1, i2, -, i4, -⟩ := (hi.entries x hx).int
            have := (memConversion_memory i2).2.2
            rw [← i4]
            refine hw bi (List.mem_of_getElem? i1) _ ?_
            unfold BusInteraction.fields
            rw [this]; simp
          obtain ⟨m1, sub, a1⟩ := retainDifferent_spec hs (a := (m.space, m.pointer)) hwm hwl
            hi.solver hrd
          rw [hrd, Solver.stop_bind] at hr
          cases hr
          have hk' : (l'.map Prod.fst).Nodup := hi.keys.sublist (sub.map _)
          obtain ⟨k1, k2⟩ := mapInsert_keys (k := (m.space, m.pointer))
            (w := (⟨idx, m.data, m.timestamp⟩ : MemContent p V)) hk'
          refine ⟨m1, k1, ?_, hi.pairs, hi.nodup, hbelow⟩
          intro x hx
          rcases k2 x hx with rfl | hx
          · refine ⟨by simp, ⟨b, m, hb, hc, hop, rfl, rfl, rfl⟩, fun k h1 h2 => ?_, fun hk => ?_⟩
            · simp only at h1; omega
            · have := hi.below _ hk; simp at this
          · exact (hi.entries x (sub.subset hx)).mono
              ⟨b, hb, Or.inr ⟨m, hc, fun _ σ hσ => a1 x hx σ hσ⟩⟩

theorem memoryLoop_inv {bus : Bus p} {h : Handler p} (hs : h.Sound bus) {A : (V → ZMod p) → Prop}
    {id : ℕ} {bs : List (BusInteraction (GExpr p V))} (hw : ∀ b ∈ bs, b.WF) :
    ∀ {suf : List (BusInteraction (GExpr p V))} {idx : ℕ} {st st' : MemState p V},
    (∀ k, suf[k]? = bs[idx + k]?) → LoopInv bus h A id bs idx st →
    memoryLoop h id idx suf st = .ok st' → LoopInv bus h A id bs (idx + suf.length) st'
  | [], idx, st, st', _, hi, hr => by cases hr; exact hi
  | b :: t, idx, st, st', hsuf, hi, hr => by
    rw [memoryLoop] at hr
    cases h1 : memoryStep h id idx b st with
    | error x => rw [h1] at hr; cases hr
    | ok st1 =>
      rw [h1, Solver.stop_bind] at hr
      have hb : bs[idx]? = some b := by have := hsuf 0; simpa using this.symm
      have := memoryLoop_inv hs hw (suf := t) (idx := idx + 1) (fun k => by
        have := hsuf (k + 1)
        rw [List.getElem?_cons_succ] at this
        rw [this]; congr 1; omega) (memoryStep_inv hs hw hi hb h1) hr
      rw [List.length_cons, ← Nat.add_assoc, Nat.add_right_comm]
      exact this

theorem optimizeMemory_ok {bus : Bus p} {h : Handler p} (hs : h.Sound bus)
    {A : (V → ZMod p) → Prop} {id : ℕ} {s s' : ConstraintSystem p V} {solver solver' : Solver p V}
    (hw : s.WF) (hm : solver.MadeFor bus h A)
    (hr : optimizeMemory h (some id) s solver = .ok (s', solver')) :
    ∃ P : List (MemPair p V), ∃ solver1, (∀ x ∈ P, x.Ok A id s.bus) ∧
      (P.flatMap MemPair.indices).Nodup ∧
      solver1.MadeFor bus h A ∧
      SolverOp.run h solver1 (.addAlgebraic (P.flatMap MemPair.constraints)) = .ok (.unit, solver') ∧
      s' = { s with
        bus := (s.bus.zipIdx.filter fun x => x.2 ∉ P.flatMap MemPair.indices).map Prod.fst
        algebraic := s.algebraic ++ P.flatMap MemPair.constraints } := by
  simp only [optimizeMemory, redundantMemoryInteractions] at hr
  cases h1 : memoryLoop h id 0 s.bus ⟨[], [], [], solver⟩ with
  | error x => rw [h1] at hr; cases hr
  | ok st =>
    have hi0 : LoopInv bus h A id s.bus 0 ⟨[], [], [], solver⟩ :=
      ⟨hm, List.nodup_nil, by simp, ⟨[], rfl, rfl, by simp⟩, List.nodup_nil, by simp⟩
    have hi := memoryLoop_inv hs hw.2 (suf := s.bus) (fun k => by rw [Nat.zero_add]) hi0 h1
    obtain ⟨P, p1, p2, p3⟩ := hi.pairs
    rw [h1, Solver.stop_bind] at hr
    cases h2 : SolverOp.run h st.solver (.addAlgebraic st.newConstraints) with
    | error x => rw [h2] at hr; cases hr
    | ok r =>
      rw [h2] at hr
      cases hr
      refine ⟨P, st.solver, p3, p1 ▸ hi.nodup, hi.solver, ?_, ?_⟩
      · rw [← p2, h2]
        rw [SolverOp.run] at h2
        cases h3 : st.solver.addAlgebraic (st.newConstraints.map transformExpr) with
        | error x => rw [h3] at h2; cases h2
        | ok s2 => rw [h3] at h2; cases h2; rfl
      · rw [← p1, ← p2]

/-! ### Balance -/

theorem sum_zipIdx {α M : Type} [AddCommMonoid M] (g : ℕ → α → M) : ∀ (l : List α) (n : ℕ),
    ((l.zipIdx n).map fun x => g x.2 x.1).sum =
      ∑ k ∈ Finset.range l.length, (l[k]?).elim 0 (g (k + n))
  | [], n => by simp
  | a :: t, n => by
    rw [List.zipIdx_cons, List.map_cons, List.sum_cons, sum_zipIdx g t (n + 1), List.length_cons,
      Finset.sum_range_succ', add_comm]
    simp only [List.getElem?_cons_succ, List.getElem?_cons_zero, Option.elim_some, Nat.zero_add,
      Nat.add_assoc, Nat.add_comm 1 n]

theorem sum_filter_map {α M : Type} [AddCommMonoid M] (q : α → Bool) (f : α → M) (l : List α) :
    ((l.filter q).map f).sum = (l.map fun x => if q x then f x else 0).sum := by
  induction l with
  | nil => rfl
  | cons a t ih =>
    rw [List.filter_cons, List.map_cons, List.sum_cons, ← ih]
    cases q a <;> simp

theorem sum_removed {α M : Type} [AddCommGroup M] (f : α → M) (l : List α) (R : List ℕ)
    (hR : R.Nodup) (hlt : ∀ k ∈ R, k < l.length)
    (h0 : (R.map fun k => (l[k]?).elim 0 f).sum = 0) :
    (((l.zipIdx.filter fun x => x.2 ∉ R).map Prod.fst).map f).sum = (l.map f).sum := by
  have h1 : (l.map f).sum = ∑ k ∈ Finset.range l.length, (l[k]?).elim 0 f := by
    have := sum_zipIdx (fun _ => f) l 0
    rw [← this]
    congr 1
    rw [← Function.comp_def f Prod.fst, ← List.map_map, List.zipIdx_map_fst]
  have h2 := sum_zipIdx (fun k a => if k ∉ R then f a else 0) l 0
  rw [List.map_map, sum_filter_map, h1]
  simp only [decide_eq_true_eq, Function.comp_apply]
  rw [h2]
  have h3 : ∑ k ∈ R.toFinset, (l[k]?).elim 0 f = 0 := by
    rw [List.sum_toFinset _ hR]; exact h0
  have hsub : R.toFinset ⊆ Finset.range l.length := by
    intro k hk
    exact Finset.mem_range.2 (hlt k (List.mem_toFinset.1 hk))
  rw [← Finset.sum_sdiff hsub (f := fun k => (l[k]?).elim 0 f), h3, add_zero,
    ← Finset.sum_sdiff hsub]
  have h4 : ∑ k ∈ R.toFinset, (l[k]?).elim 0 (fun a => if k + 0 ∉ R then f a else 0) = 0 := by
    refine Finset.sum_eq_zero fun k hk => ?_
    rw [List.mem_toFinset] at hk
    cases l[k]? <;> simp [hk]
  rw [h4, add_zero]
  refine Finset.sum_congr rfl fun k hk => ?_
  have : k ∉ R := fun h => (Finset.mem_sdiff.1 hk).2 (List.mem_toFinset.2 h)
  cases l[k]? <;> simp [this]

theorem eval_eq_of_zip {σ : V → ZMod p} : ∀ {l l' : List (GExpr p V)}, l.length = l'.length →
    (∀ e ∈ (l.zip l').map (fun x => sub x.1 x.2), eval σ e = 0) → l.map (eval σ) = l'.map (eval σ)
  | [], [], _, _ => rfl
  | [], _ :: _, h, _ => by simp at h
  | _ :: _, [], h, _ => by simp at h
  | a :: t, b :: t', h, h0 => by
    simp only [List.zip_cons_cons, List.map_cons, List.mem_cons, forall_eq_or_imp] at h0
    rw [List.map_cons, List.map_cons, eval_eq_of_zip (by simpa using h) h0.2]
    rw [eval_sub, sub_eq_zero] at h0
    rw [h0.1]

theorem zip_of_eval_eq {σ : V → ZMod p} : ∀ {l l' : List (GExpr p V)},
    l.map (eval σ) = l'.map (eval σ) → ∀ e ∈ (l.zip l').map (fun x => sub x.1 x.2), eval σ e = 0
  | [], _, _ => by simp
  | _ :: _, [], _ => by simp
  | a :: t, b :: t', h => by
    simp only [List.map_cons, List.cons.injEq] at h
    simp only [List.zip_cons_cons, List.map_cons, List.mem_cons, forall_eq_or_imp]
    exact ⟨by rw [eval_sub, sub_eq_zero]; exact h.1, zip_of_eval_eq h.2⟩

theorem MemPair.constraints_iff {x : MemPair p V} (hl : x.mi.data.length = x.mj.data.length)
    (σ : V → ZMod p) : (∀ e ∈ x.constraints, eval σ e = 0) ↔
      x.mi.data.map (eval σ) = x.mj.data.map (eval σ) ∧
        eval σ x.mi.timestamp = eval σ x.mj.timestamp := by
  unfold MemPair.constraints
  constructor
  · intro h
    refine ⟨eval_eq_of_zip hl fun e he => h e (List.mem_append_left _ he), ?_⟩
    have := h (sub x.mi.timestamp x.mj.timestamp) (by simp)
    rwa [eval_sub, sub_eq_zero] at this
  · rintro ⟨h1, h2⟩ e he
    rcases List.mem_append.1 he with he | he
    · exact zip_of_eval_eq h1 e he
    · rw [List.mem_singleton.1 he, eval_sub, sub_eq_zero]; exact h2

theorem balance_pairs {A : (V → ZMod p) → Prop} {id : ℕ} {bs : List (BusInteraction (GExpr p V))}
    {P : List (MemPair p V)} (hP : ∀ x ∈ P, x.Ok A id bs)
    (hn : (P.flatMap MemPair.indices).Nodup) {σ : V → ZMod p}
    (hσ : ∀ e ∈ P.flatMap MemPair.constraints, eval σ e = 0) (busId : ZMod p)
    (message : List (ZMod p)) :
    busBalance σ ((bs.zipIdx.filter fun x => x.2 ∉ P.flatMap MemPair.indices).map Prod.fst) busId
      message = busBalance σ bs busId message := by
  refine sum_removed _ bs _ hn ?_ ?_
  · intro k hk
    obtain ⟨x, hx, hk⟩ := List.mem_flatMap.1 hk
    obtain ⟨⟨b, h1, -⟩, ⟨b', h2, -⟩⟩ := And.intro (hP x hx).set (hP x hx).get
    simp only [MemPair.indices, List.mem_cons, List.not_mem_nil, or_false] at hk
    rcases hk with rfl | rfl
    · exact (List.getElem?_eq_some_iff.1 h2).1
    · exact (List.getElem?_eq_some_iff.1 h1).1
  · clear hn
    induction P with
    | nil => rfl
    | cons x P ih =>
      rw [List.flatMap_cons, List.map_append, List.sum_append, ih (fun y hy => hP y (by simp [hy]))
        (fun e he => hσ e (by rw [List.flatMap_cons]; exact List.mem_append_right _ he)), add_zero]
      have hx := hP x (by simp)
      obtain ⟨b, b1, b2⟩ := hx.set
      obtain ⟨b', b3, b4⟩ := hx.get
      obtain ⟨c1, c2, c3⟩ := memConversion_memory b2
      obtain ⟨d1, d2, d3⟩ := memConversion_memory b4
      have hc : b.multiplicity = const 1 := by
        rcases c2 with c2 | c2
        · exact c2.2
        · rw [hx.setOp] at c2; exact absurd c2.1 (by simp)
      have hd : b'.multiplicity = const (-1) := by
        rcases d2 with d2 | d2
        · rw [hx.getOp] at d2; exact absurd d2.1 (by simp)
        · exact d2.2.1
      obtain ⟨e1, e2⟩ := (MemPair.constraints_iff hx.length σ).1
        (fun e he => hσ e (by rw [List.flatMap_cons]; exact List.mem_append_left _ he))
      have hpl : (b.evalAt σ).payload = (b'.evalAt σ).payload := by
        simp only [BusInteraction.evalAt, c3, d3, List.map_cons, List.map_append, List.map_nil, e1, e2,
          hx.space, hx.pointer]
      have hid : (b.evalAt σ).busId = (b'.evalAt σ).busId := by
        simp only [BusInteraction.evalAt, c1, d1]
      simp only [MemPair.indices, List.map_cons, List.map_nil, b1, b3, Option.elim_some, List.sum_cons,
        List.sum_nil, add_zero, hpl, hid]
      split
      · simp only [BusInteraction.evalAt, hc, hd, eval_const]; ring
      · ring

/-! ### The remaining interactions are a sequence of memory operations -/

theorem run_states {id : ZMod p} : ∀ {bs : List (BusInteraction (ZMod p))} {m m' : Memory p},
    MemoryRun id bs m m' → ∃ f : ℕ → Memory p, f 0 = m ∧ f bs.length = m' ∧
      ∀ k b, bs[k]? = some b → MemoryStep id b (f k) (f (k + 1))
  | [], m, m', h => ⟨fun _ => m, rfl, h.symm, by simp⟩
  | b :: t, m, m', ⟨m1, h1, h2⟩ => by
    obtain ⟨f, f0, fn, hf⟩ := run_states h2
    refine ⟨fun k => if k = 0 then m else f (k - 1), by simp, by simp [fn], fun k c hk => ?_⟩
    cases k with
    | zero =>
      simp only [List.getElem?_cons_zero, Option.some.injEq] at hk
      subst hk
      simp [f0, h1]
    | succ k =>
      rw [List.getElem?_cons_succ] at hk
      simpa using hf k c hk

theorem run_filtered {id : ZMod p} {σ : V → ZMod p} {R : List ℕ} {f : ℕ → Memory p} :
    ∀ {l : List (BusInteraction (GExpr p V))} {n : ℕ},
    (∀ k b, l[k]? = some b → (k + n ∈ R → f (k + n + 1) = f (k + n)) ∧
      (k + n ∉ R → MemoryStep id (b.evalAt σ) (f (k + n)) (f (k + n + 1)))) →
    MemoryRun id ((((l.zipIdx n).filter fun x => x.2 ∉ R).map Prod.fst).map fun b => b.evalAt σ)
      (f n) (f (n + l.length))
  | [], n, _ => rfl
  | b :: t, n, h => by
    have ih := run_filtered (l := t) (n := n + 1) fun k c hk => by
      have := h (k + 1) c (by rw [List.getElem?_cons_succ]; exact hk)
      rwa [Nat.add_right_comm k 1 n] at this
    have h0 := h 0 b rfl
    rw [Nat.zero_add] at h0
    rw [List.zipIdx_cons, List.filter_cons]
    have e : n + (b :: t).length = n + 1 + t.length := by rw [List.length_cons]; omega
    rw [e]
    by_cases hn : n ∈ R
    · simp only [hn, not_true_eq_false, decide_false, Bool.false_eq_true, if_false]
      rw [h0.1 hn] at ih
      exact ih
    · simp only [hn, not_false_eq_true, decide_true, if_true, List.map_cons]
      exact ⟨_, h0.2 hn, ih⟩

/-- What a step does, by the result of the conversion. -/
theorem step_memory {id : ℕ} {b : BusInteraction (GExpr p V)} {m : MemInt p V}
    (hc : memConversion id b = .ok (.memory m)) {σ : V → ZMod p} {g g' : Memory p}
    (h : MemoryStep (id : ZMod p) (b.evalAt σ) g g') :
    (m.op = .setNew → g (m.space, eval σ m.pointer) = none ∧
      g' = Function.update g (m.space, eval σ m.pointer)
        (some (m.data.map (eval σ), eval σ m.timestamp))) ∧
    (m.op = .getPrevious → g (m.space, eval σ m.pointer) =
        some (m.data.map (eval σ), eval σ m.timestamp) ∧
      g' = Function.update g (m.space, eval σ m.pointer) none) := by
  obtain ⟨c1, c2, c3⟩ := memConversion_memory hc
  have hpl : (b.evalAt σ).payload = m.space :: eval σ m.pointer ::
      (m.data.map (eval σ) ++ [eval σ m.timestamp]) := by
    simp only [BusInteraction.evalAt, c3, List.map_cons, List.map_append, List.map_nil, eval_const]
  have hid : (b.evalAt σ).busId = (id : ZMod p) := by
    simp only [BusInteraction.evalAt, c1, eval_const]
  have := h.2 _ _ _ _ hid hpl
  rcases c2 with ⟨o, c2⟩ | ⟨o, c2, c4⟩
  · have hmul : (b.evalAt σ).multiplicity = 1 := by
      simp only [BusInteraction.evalAt, c2, eval_const]
    exact ⟨fun _ => this.1 hmul, fun h => by simp [o] at h⟩
  · have hmul : (b.evalAt σ).multiplicity = -1 := by
      simp only [BusInteraction.evalAt, c2, eval_const]
    exact ⟨fun h => by simp [o] at h, fun _ => this.2 hmul (by rw [hmul]; exact c4)⟩

theorem step_notMemory {id : ℕ} {b : BusInteraction (GExpr p V)}
    (hc : memConversion id b = .ok .notMemory) {σ : V → ZMod p} {g g' : Memory p}
    (h : MemoryStep (id : ZMod p) (b.evalAt σ) g g') : g' = g :=
  h.1 (Or.inl (memConversion_notMemory hc σ))

/-- The concrete address of a pair. -/
def MemPair.address (σ : V → ZMod p) (x : MemPair p V) : ZMod p × ZMod p :=
  (x.mi.space, eval σ x.mi.pointer)

section
variable {A : (V → ZMod p) → Prop} {id : ℕ} {bs : List (BusInteraction (GExpr p V))}
  {σ : V → ZMod p} {f : ℕ → Memory p}

theorem pair_between (hσ : A σ)
    (hf : ∀ k b, bs[k]? = some b → MemoryStep (id : ZMod p) (b.evalAt σ) (f k) (f (k + 1)))
    {x : MemPair p V} (hx : x.Ok A id bs) :
    ∀ n k, k + n = x.j → x.i < k →
      f k (x.address σ) = some (x.mj.data.map (eval σ), eval σ x.mj.timestamp) ∧
      (k < x.j → ∀ b m, bs[k]? = some b → memConversion id b = .ok (.memory m) →
        (m.space, eval σ m.pointer) ≠ x.address σ) := by
  intro n
  induction n with
  | zero =>
    intro k hk _
    rw [Nat.add_zero] at hk
    subst hk
    obtain ⟨b, b1, b2⟩ := hx.get
    have := ((step_memory b2 (hf _ _ b1)).2 hx.getOp).1
    refine ⟨?_, fun h => absurd h (lt_irrefl _)⟩
    rw [MemPair.address, hx.space, hx.pointer]
    exact this
  | succ n ih =>
    intro k hk hik
    have hkj : k < x.j := by omega
    obtain ⟨i1, -⟩ := ih (k + 1) (by omega) (by omega)
    obtain ⟨b, b1, b2⟩ := hx.quiet k hik hkj
    have hstep := hf k b b1
    rcases b2 with b2 | ⟨m, b2, b3⟩
    · have := step_notMemory b2 hstep
      refine ⟨by rw [← this]; exact i1, fun _ b' m' h1 h2 => ?_⟩
      rw [b1] at h1; cases h1
      rw [b2] at h2; cases h2
    · have hne : (m.space, eval σ m.pointer) ≠ x.address σ := by
        cases hop : m.op with
        | setNew => exact b3 hop σ hσ
        | getPrevious =>
          intro heq
          have := ((step_memory b2 hstep).2 hop).2
          rw [this, ← heq, Function.update_self] at i1
          cases i1
      refine ⟨?_, fun _ b' m' h1 h2 => ?_⟩
      · rw [← i1]
        cases hop : m.op with
        | setNew =>
          rw [((step_memory b2 hstep).1 hop).2, Function.update_of_ne (Ne.symm hne)]
        | getPrevious =>
          rw [((step_memory b2 hstep).2 hop).2, Function.update_of_ne (Ne.symm hne)]
      · rw [b1] at h1; cases h1
        rw [b2] at h2; cases h2
        exact hne

theorem pair_equal (hσ : A σ)
    (hf : ∀ k b, bs[k]? = some b → MemoryStep (id : ZMod p) (b.evalAt σ) (f k) (f (k + 1)))
    {x : MemPair p V} (hx : x.Ok A id bs) : ∀ e ∈ x.constraints, eval σ e = 0 := by
  rw [MemPair.constraints_iff hx.length]
  have h1 := (pair_between hσ hf hx (x.j - (x.i + 1)) (x.i + 1)
    (by have := hx.lt; omega) (by omega)).1
  obtain ⟨b, b1, b2⟩ := hx.set
  have h2 := ((step_memory b2 (hf _ _ b1)).1 hx.setOp).2
  rw [h2, MemPair.address, Function.update_self] at h1
  have h3 := Prod.mk.inj (Option.some.inj h1)
  exact h3

open Classical in
/-- The memory without the contents set and fetched by removed pairs. -/
noncomputable def masked (P : List (MemPair p V)) (σ : V → ZMod p) (f : ℕ → Memory p) :
    ℕ → Memory p := fun k a =>
  if ∃ x ∈ P, x.i < k ∧ k ≤ x.j ∧ a = x.address σ then none else f k a

theorem masked_removed (hf : ∀ k b, bs[k]? = some b →
      MemoryStep (id : ZMod p) (b.evalAt σ) (f k) (f (k + 1)))
    {P : List (MemPair p V)} (hP : ∀ x ∈ P, x.Ok A id bs) {k : ℕ}
    (hk : k ∈ P.flatMap MemPair.indices) : masked P σ f (k + 1) = masked P σ f k := by
  obtain ⟨x, hx, hk⟩ := List.mem_flatMap.1 hk
  have ox := hP x hx
  simp only [MemPair.indices, List.mem_cons, List.not_mem_nil, or_false] at hk
  obtain ⟨b, b1, b2⟩ := ox.set
  obtain ⟨c, c1, c2⟩ := ox.get
  have hadr : (x.mj.space, eval σ x.mj.pointer) = x.address σ := by
    rw [MemPair.address, ox.space, ox.pointer]
  -- the memory conversion at `k` has the address of `x`
  have hconv : ∃ b m, bs[k]? = some b ∧ memConversion id b = .ok (.memory m) ∧
      (m.space, eval σ m.pointer) = x.address σ := by
    rcases hk with rfl | rfl
    · exact ⟨c, _, c1, c2, hadr⟩
    · exact ⟨b, _, b1, b2, rfl⟩
  have hopen : ∀ a, a ≠ x.address σ → ((∃ y ∈ P, y.i < k + 1 ∧ k + 1 ≤ y.j ∧ a = y.address σ) ↔
      ∃ y ∈ P, y.i < k ∧ k ≤ y.j ∧ a = y.address σ) := by
    intro a ha
    obtain ⟨d, m, d1, d2, d3⟩ := hconv
    have noi : ∀ y ∈ P, a = y.address σ → y.i ≠ k := by
      intro y hy hay hyk
      obtain ⟨e, e1, e2⟩ := (hP y hy).set
      rw [hyk, d1] at e1; cases e1
      rw [d2] at e2; cases e2
      exact ha (hay.trans d3)
    have noj : ∀ y ∈ P, a = y.address σ → y.j ≠ k := by
      intro y hy hay hyk
      obtain ⟨e, e1, e2⟩ := (hP y hy).get
      rw [hyk, d1] at e1; cases e1
      rw [d2] at e2; cases e2
      refine ha (hay.trans ?_)
      rw [← d3, MemPair.address, (hP y hy).space, (hP y hy).pointer]
    constructor
    · rintro ⟨y, hy, h1, h2, h3⟩
      have := noi y hy h3
      exact ⟨y, hy, by omega, by omega, h3⟩
    · rintro ⟨y, hy, h1, h2, h3⟩
      have := noj y hy h3
      exact ⟨y, hy, by omega, by omega, h3⟩
  funext a
  have hlt := ox.lt
  by_cases ha : a = x.address σ
  · subst ha
    unfold masked
    rcases hk with rfl | rfl
    · have h1 := ((step_memory c2 (hf _ _ c1)).2 ox.getOp).2
      have hright : ∃ y ∈ P, y.i < x.j ∧ x.j ≤ y.j ∧ x.address σ = y.address σ :=
        ⟨x, hx, hlt, le_rfl, rfl⟩
      rw [if_pos hright]
      split
      · rfl
      · rw [h1, hadr, Function.update_self]
    · have h1 := ((step_memory b2 (hf _ _ b1)).1 ox.setOp).1
      have hleft : ∃ y ∈ P, y.i < x.i + 1 ∧ x.i + 1 ≤ y.j ∧ x.address σ = y.address σ :=
        ⟨x, hx, by omega, hlt, rfl⟩
      rw [if_pos hleft]
      split
      · rfl
      · exact h1.symm
  · unfold masked
    simp only [hopen a ha]
    split
    · rfl
    · rcases hk with rfl | rfl
      · rw [((step_memory c2 (hf _ _ c1)).2 ox.getOp).2, hadr, Function.update_of_ne ha]
      · rw [((step_memory b2 (hf _ _ b1)).1 ox.setOp).2]
        exact Function.update_of_ne ha _ _

theorem masked_kept (hσ : A σ) (hf : ∀ k b, bs[k]? = some b →
      MemoryStep (id : ZMod p) (b.evalAt σ) (f k) (f (k + 1)))
    {P : List (MemPair p V)} (hP : ∀ x ∈ P, x.Ok A id bs) {k : ℕ}
    (hk : k ∉ P.flatMap MemPair.indices) {b : BusInteraction (GExpr p V)} (hb : bs[k]? = some b) :
    MemoryStep (id : ZMod p) (b.evalAt σ) (masked P σ f k) (masked P σ f (k + 1)) := by
  have hne : ∀ y ∈ P, y.i ≠ k ∧ y.j ≠ k := by
    intro y hy
    refine ⟨fun h => hk ?_, fun h => hk ?_⟩ <;>
      exact List.mem_flatMap.2 ⟨y, hy, by simp [MemPair.indices, h]⟩
  have hopen : ∀ a, ((∃ y ∈ P, y.i < k + 1 ∧ k + 1 ≤ y.j ∧ a = y.address σ) ↔
      ∃ y ∈ P, y.i < k ∧ k ≤ y.j ∧ a = y.address σ) := by
    intro a
    constructor <;>
    · rintro ⟨y, hy, h1, h2, h3⟩
      have := hne y hy
      exact ⟨y, hy, by omega, by omega, h3⟩
  have hstep := hf k b hb
  refine ⟨fun h => ?_, fun space pointer data timestamp hid hpl => ?_⟩
  · have := hstep.1 h
    funext a
    unfold masked
    simp only [hopen a]
    rw [this]
  · have hout : (b.evalAt σ).multiplicity = 1 ∨ (b.evalAt σ).multiplicity = -1 →
        ¬ ∃ y ∈ P, y.i < k ∧ k ≤ y.j ∧ (space, pointer) = y.address σ := by
      rintro - ⟨y, hy, h1, h2, h3⟩
      have hy' := hne y hy
      have hlt : k < y.j := by omega
      obtain ⟨b', b1, b2⟩ := (hP y hy).quiet k h1 hlt
      rw [hb] at b1; cases b1
      rcases b2 with b2 | ⟨m, b2, -⟩
      · exact memConversion_notMemory b2 σ hid
      · refine (pair_between hσ hf (hP y hy) (y.j - k) k (by omega) h1).2 hlt b m hb b2 ?_
        rw [← h3]
        have := (memConversion_memory b2).2.2
        simp only [BusInteraction.evalAt, this, List.map_cons, eval_const, List.cons.injEq] at hpl
        rw [hpl.1, hpl.2.1]
    obtain ⟨s1, s2⟩ := hstep.2 space pointer data timestamp hid hpl
    refine ⟨fun h1 => ?_, fun h1 h2 => ?_⟩
    · obtain ⟨t1, t2⟩ := s1 h1
      have ho := hout (Or.inl h1)
      refine ⟨by unfold masked; rw [if_neg ho]; exact t1, ?_⟩
      funext a
      unfold masked
      simp only [hopen a, t2]
      by_cases ha : a = (space, pointer)
      · subst ha
        rw [Function.update_self, Function.update_self, if_neg ho]
      · rw [Function.update_of_ne ha, Function.update_of_ne ha]
    · obtain ⟨t1, t2⟩ := s2 h1 h2
      have ho := hout (Or.inr h1)
      refine ⟨by unfold masked; rw [if_neg ho]; exact t1, ?_⟩
      funext a
      unfold masked
      simp only [hopen a, t2]
      by_cases ha : a = (space, pointer)
      · subst ha
        rw [Function.update_self, Function.update_self, if_neg ho]
      · rw [Function.update_of_ne ha, Function.update_of_ne ha]

theorem run_without_pairs (hσ : A σ) {P : List (MemPair p V)} (hP : ∀ x ∈ P, x.Ok A id bs)
    {m m' : Memory p} (hr : MemoryRun (id : ZMod p) (bs.map fun b => b.evalAt σ) m m') :
    (∀ e ∈ P.flatMap MemPair.constraints, eval σ e = 0) ∧
    MemoryRun (id : ZMod p)
      (((bs.zipIdx.filter fun x => x.2 ∉ P.flatMap MemPair.indices).map Prod.fst).map
        fun b => b.evalAt σ) m m' := by
  obtain ⟨f, f0, fn, hf'⟩ := run_states hr
  have hf : ∀ k b, bs[k]? = some b → MemoryStep (id : ZMod p) (b.evalAt σ) (f k) (f (k + 1)) := by
    intro k b hb
    exact hf' k _ (by rw [List.getElem?_map, hb]; rfl)
  constructor
  · intro e he
    obtain ⟨x, hx, he⟩ := List.mem_flatMap.1 he
    exact pair_equal hσ hf (hP x hx) e he
  · have h := run_filtered (σ := σ) (id := (id : ZMod p)) (R := P.flatMap MemPair.indices)
      (f := masked P σ f) (l := bs) (n := 0) (fun k b hb =>
        ⟨fun hk => masked_removed hf hP hk, fun hk => masked_kept hσ hf hP hk hb⟩)
    have e0 : masked P σ f 0 = m := by
      funext a
      unfold masked
      rw [if_neg (by rintro ⟨y, -, h, -⟩; omega), f0]
    have en : masked P σ f (0 + bs.length) = m' := by
      funext a
      unfold masked
      rw [if_neg, Nat.zero_add]
      · rw [List.length_map] at fn
        rw [fn]
      · rintro ⟨y, hy, -, h2, -⟩
        obtain ⟨c, c1, -⟩ := (hP y hy).get
        have := (List.getElem?_eq_some_iff.1 c1).1
        omega
    rw [e0, en] at h
    exact h

end

/-! ### Further facts -/

theorem filter_removed {α : Type} {R : List ℕ} (q : α → Bool) :
    ∀ (l : List α) (n : ℕ), (∀ k b, k + n ∈ R → l[k]? = some b → q b = false) →
      (((l.zipIdx n).filter fun x => x.2 ∉ R).map Prod.fst).filter q = l.filter q
  | [], _, _ => rfl
  | b :: t, n, h => by
    have ih := filter_removed q t (n + 1) fun k c hk hc =>
      h (k + 1) c (by rwa [Nat.add_right_comm]) (by rw [List.getElem?_cons_succ]; exact hc)
    rw [List.zipIdx_cons, List.filter_cons]
    by_cases hn : n ∈ R
    · have hq := h 0 b (by rwa [Nat.zero_add]) rfl
      simp only [hn, not_true_eq_false, decide_false, Bool.false_eq_true, if_false,
        List.filter_cons, hq]
      exact ih
    · simp only [hn, not_false_eq_true, decide_true, if_true, List.map_cons, List.filter_cons, ih]

theorem pairs_wf {A : (V → ZMod p) → Prop} {id : ℕ} {s : ConstraintSystem p V}
    (hw : s.WF) {P : List (MemPair p V)} (hP : ∀ x ∈ P, x.Ok A id s.bus) :
    ∀ e ∈ P.flatMap MemPair.constraints, GExpr.WF e := by
  have hm : ∀ {b : BusInteraction (GExpr p V)} {m : MemInt p V} {k : ℕ}, s.bus[k]? = some b →
      memConversion id b = .ok (.memory m) →
      (∀ e ∈ m.data, GExpr.WF e) ∧ GExpr.WF m.timestamp := by
    intro b m k hb hc
    have hbw := hw.2 b (List.mem_of_getElem? hb)
    have hp := (memConversion_memory hc).2.2
    have : ∀ e ∈ b.payload, GExpr.WF e := fun e he =>
      hbw e (by simp [BusInteraction.fields, he])
    rw [hp] at this
    exact ⟨fun e he => this e (by simp [he]), this _ (by simp)⟩
  intro e he
  obtain ⟨x, hx, he⟩ := List.mem_flatMap.1 he
  obtain ⟨b, b1, b2⟩ := (hP x hx).set
  obtain ⟨c, c1, c2⟩ := (hP x hx).get
  have h1 := hm b1 b2
  have h2 := hm c1 c2
  rcases List.mem_append.1 he with he | he
  · obtain ⟨y, hy, rfl⟩ := List.mem_map.1 he
    have := List.of_mem_zip (a := y.1) (b := y.2) hy
    exact wf_sub (h1.1 _ this.1) (h2.1 _ this.2)
  · rw [List.mem_singleton.1 he]
    exact wf_sub h1.2 h2.2

theorem memoryStep_set {id space pointer ts : ZMod p} {data : List (ZMod p)} {m : Memory p}
    (h : m (space, pointer) = none) :
    MemoryStep id ⟨id, 1, space :: pointer :: (data ++ [ts])⟩ m
      (Function.update m (space, pointer) (some (data, ts))) := by
  refine ⟨fun h => by simp at h, fun s q d t _ hp => ⟨fun _ => ?_, fun _ h => by simp at h⟩⟩
  simp only [List.cons.injEq, List.append_singleton_inj] at hp
  obtain ⟨rfl, rfl, rfl, rfl⟩ := hp
  exact ⟨h, rfl⟩

theorem memoryStep_get {id space pointer ts : ZMod p} {data : List (ZMod p)} {m : Memory p}
    (h : m (space, pointer) = some (data, ts)) (hp : (-1 : ZMod p) ≠ 1) :
    MemoryStep id ⟨id, -1, space :: pointer :: (data ++ [ts])⟩ m
      (Function.update m (space, pointer) none) := by
  refine ⟨fun h => by simp at h, fun s q d t _ hpl => ⟨fun h => absurd h hp, fun _ _ => ?_⟩⟩
  simp only [List.cons.injEq, List.append_singleton_inj] at hpl
  obtain ⟨rfl, rfl, rfl, rfl⟩ := hpl
  exact ⟨h, rfl⟩

theorem memoryStep_other {id : ZMod p} {b : BusInteraction (ZMod p)} {m : Memory p}
    (h : b.busId ≠ id) : MemoryStep id b m m :=
  ⟨fun _ => rfl, fun _ _ _ _ h' => absurd h' h⟩

end Verif
