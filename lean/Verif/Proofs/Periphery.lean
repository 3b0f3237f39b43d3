import Verif.Spec.Periphery
import Verif.Proofs.Witness

/-!
# Proofs about the AIR of a precompile and the replay of lookups
-/

set_option linter.unusedSectionVars false

namespace Verif

theorem lookup_of_mem_nodup {V : Type} {l : List (ℕ × V)} (h : (l.map Prod.fst).Nodup) {k : ℕ} {v : V}
    (hm : (k, v) ∈ l) : l.lookup k = some v := by
  induction l with
  | nil => cases hm
  | cons a t ih =>
    obtain ⟨k', v'⟩ := a
    rw [List.map_cons, List.nodup_cons] at h
    rw [List.lookup_cons]
    rcases List.mem_cons.1 hm with he | ht
    · cases he
      simp
    · have hne : k ≠ k' := by
        rintro rfl
        exact h.1 (List.mem_map.2 ⟨_, ht, rfl⟩)
      rw [beq_eq_false_iff_ne.2 hne]
      exact ih h.2 ht

section
variable {F : Type} [Field F] [DecidableEq F]

theorem witnessVar_ok {columns : List ℕ} {row : List F} (hn : columns.Nodup) (hl : columns.length = row.length)
    {id : ℕ} (h : id ∈ columns) : witnessVar (columns.zip row) id = .ok (columnValue columns row id) := by
  have hi : columns.idxOf id < columns.length := List.idxOf_lt_length_iff.2 h
  have hm : (id, columnValue columns row id) ∈ columns.zip row := by
    rw [List.mem_iff_getElem]
    refine ⟨columns.idxOf id, by simp; omega, ?_⟩
    simp [columnValue, hl ▸ hi]
  have hk : (columns.zip row).map Prod.fst = columns := by
    rw [List.map_fst_zip]
    omega
  unfold witnessVar
  rw [lookup_of_mem_nodup (l := (columns.zip row).reverse) (v := columnValue columns row id) _
    (List.mem_reverse.2 hm)]
  rw [List.map_reverse, List.nodup_reverse, hk]
  exact hn

theorem evalExpr_ok {var : ℕ → Except Panic F} {σ : ℕ → F} (e : AlgExpr F ℕ)
    (h : ∀ r ∈ e.refs, var r = .ok (σ r)) : evalExpr var e = .ok (e.value σ) := by
  induction e with
  | reference r => exact h r (by simp [AlgExpr.refs])
  | number n => rfl
  | binary l op r ihl ihr =>
    have hl := ihl fun x hx => h x (by simp [AlgExpr.refs, hx])
    have hr := ihr fun x hx => h x (by simp [AlgExpr.refs, hx])
    cases op <;> (unfold evalExpr; rw [hl, hr]; rfl)
  | minus e ih =>
    have he := ih fun x hx => h x (by simpa [AlgExpr.refs] using hx)
    unfold evalExpr
    rw [he]
    rfl

theorem airEval_ok (m : SymMachine F ℕ) {row : List F} (hl : row.length = m.mainColumns.length) :
    airEval m row = .ok (m.constraints.map (AlgExpr.value (columnValue m.mainColumns row)),
      (m.messages (columnValue m.mainColumns row)).map fun x => (x.1 % 2 ^ 16, x.2)) := by
  unfold airEval
  simp only
  rw [if_neg (by omega)]
  have key : ∀ e ∈ m.exprs, evalExpr (witnessVar (m.mainColumns.zip row)) e =
      .ok (e.value (columnValue m.mainColumns row)) := fun e he =>
    evalExpr_ok e fun r hr => witnessVar_ok (mainColumns_nodup m) hl.symm
      (mem_mainColumns.2 (List.mem_flatMap.2 ⟨e, he, hr⟩))
  rw [mapM_of_forall (AlgExpr.value (columnValue m.mainColumns row)) fun e he =>
    key e (List.mem_append_left _ he)]
  rw [mapM_of_forall (SymBus.message (columnValue m.mainColumns row)) fun b hb => ?_]
  · rfl
  · have hb' : ∀ e ∈ b.mult :: b.args, e ∈ m.exprs := fun e he =>
      List.mem_append_right _ (List.mem_flatMap.2 ⟨b, hb, he⟩)
    unfold evalBusInteraction
    rw [key _ (hb' _ List.mem_cons_self), mapM_of_forall (AlgExpr.value (columnValue m.mainColumns row))
      fun e he => key e (hb' e (List.mem_cons_of_mem _ he))]
    rfl

end

/-! ## The replay -/

theorem repeatM_ok {α : Type} {f : α → Except Panic α} {g : α → α} {P : α → Prop}
    (h : ∀ a, P a → f a = .ok (g a) ∧ P (g a)) (n : ℕ) (a : α) (ha : P a) :
    repeatM f n a = .ok (g^[n] a) ∧ P (g^[n] a) := by
  induction n generalizing a with
  | zero => exact ⟨rfl, ha⟩
  | succ n ih =>
    unfold repeatM
    rw [(h a ha).1]
    exact ih (g a) (h a ha).2

/-- Add an entry `n` times to a list. -/
theorem iterate_append (t : List ℕ) (l : List (List ℕ)) (n : ℕ) :
    (fun l : List (List ℕ) => l ++ [t])^[n] l = l ++ List.replicate n t := by
  induction n generalizing l with
  | zero => simp
  | succ n ih =>
    rw [Function.iterate_succ_apply, ih, List.replicate_succ]
    simp

/-- The chips with an entry added to the bitwise lookup, several times. -/
def PeripheryChips.pushBitwise (c : PeripheryChips) (n : ℕ) (t : List ℕ) : PeripheryChips :=
  { c with bitwise := c.bitwise.map (· ++ List.replicate n t) }

def PeripheryChips.pushRange (c : PeripheryChips) (n : ℕ) (t : List ℕ) : PeripheryChips :=
  { c with range := c.range ++ List.replicate n t }

def PeripheryChips.pushTuple (c : PeripheryChips) (n : ℕ) (t : List ℕ) : PeripheryChips :=
  { c with tuple := c.tuple.map (· ++ List.replicate n t) }

theorem replicate_one_append (n : ℕ) (t : List ℕ) :
    List.replicate 1 t ++ List.replicate n t = List.replicate (n + 1) t := rfl

theorem pushBitwise_iterate (c : PeripheryChips) (n : ℕ) (t : List ℕ) :
    (fun c : PeripheryChips => c.pushBitwise 1 t)^[n] c = c.pushBitwise n t := by
  induction n generalizing c with
  | zero =>
    cases c with
    | mk b r tu mb ts => cases b <;> simp [PeripheryChips.pushBitwise]
  | succ n ih =>
    rw [Function.iterate_succ_apply, ih]
    cases c with
    | mk b r tu mb ts => cases b <;> simp [PeripheryChips.pushBitwise, List.replicate_succ]

theorem pushRange_iterate (c : PeripheryChips) (n : ℕ) (t : List ℕ) :
    (fun c : PeripheryChips => c.pushRange 1 t)^[n] c = c.pushRange n t := by
  induction n generalizing c with
  | zero => simp [PeripheryChips.pushRange]
  | succ n ih =>
    rw [Function.iterate_succ_apply, ih]
    simp [PeripheryChips.pushRange, List.replicate_succ]

theorem pushTuple_iterate (c : PeripheryChips) (n : ℕ) (t : List ℕ) :
    (fun c : PeripheryChips => c.pushTuple 1 t)^[n] c = c.pushTuple n t := by
  induction n generalizing c with
  | zero =>
    cases c with
    | mk b r tu mb ts => cases tu <;> simp [PeripheryChips.pushTuple]
  | succ n ih =>
    rw [Function.iterate_succ_apply, ih]
    cases c with
    | mk b r tu mb ts => cases tu <;> simp [PeripheryChips.pushTuple, List.replicate_succ]

theorem applyBitwise_ok {c : PeripheryChips} (hc : c.bitwise.isSome) {n : ℕ} {args : List ℕ}
    (hl : args.length = 4) (h : n ≠ 0 → BitwiseEntry args) :
    c.applyBitwise n args = .ok (c.pushBitwise n args) := by
  match args, hl with
  | [x, y, z, s], _ =>
    unfold PeripheryChips.applyBitwise
    simp only
    by_cases hn : n = 0
    · subst hn
      have := pushBitwise_iterate c 0 [x, y, z, s]
      rw [← this]
      rfl
    · have key : ∀ a : PeripheryChips, a.bitwise.isSome →
          (if s = 0 then a.requestRange x y else if s = 1 then a.requestXor x y else .error .assertion) =
            .ok (a.pushBitwise 1 [x, y, z, s]) ∧ (a.pushBitwise 1 [x, y, z, s]).bitwise.isSome := by
        intro a ha
        obtain ⟨l, hl⟩ := Option.isSome_iff_exists.1 ha
        refine ⟨?_, by simp [PeripheryChips.pushBitwise, hl]⟩
        obtain ⟨x', y', hx, hy, he | he⟩ := h hn
        · simp only [List.cons.injEq, and_true] at he
          obtain ⟨rfl, rfl, rfl, rfl⟩ := he
          simp [PeripheryChips.requestRange, PeripheryChips.pushBitwise, hl, hx, hy]
        · simp only [List.cons.injEq, and_true] at he
          obtain ⟨rfl, rfl, rfl, rfl⟩ := he
          simp [PeripheryChips.requestXor, PeripheryChips.pushBitwise, hl, hx, hy]
      rw [← pushBitwise_iterate]
      exact (repeatM_ok (P := fun a : PeripheryChips => a.bitwise.isSome) key n c hc).1

theorem applyRange_ok {c : PeripheryChips} {n : ℕ} {args : List ℕ}
    (hl : args.length = 2) (h : n ≠ 0 → RangeEntry c.rangeMaxBits args) :
    c.applyRange n args = .ok (c.pushRange n args) := by
  match args, hl with
  | [x, b], _ =>
    unfold PeripheryChips.applyRange
    simp only
    by_cases hn : n = 0
    · subst hn
      have := pushRange_iterate c 0 [x, b]
      rw [← this]
      rfl
    · have key : ∀ a : PeripheryChips, a.rangeMaxBits = c.rangeMaxBits →
          a.addRange x b = .ok (a.pushRange 1 [x, b]) ∧ (a.pushRange 1 [x, b]).rangeMaxBits = c.rangeMaxBits := by
        intro a ha
        refine ⟨?_, ha⟩
        obtain ⟨x', b', he, hb, hx⟩ := h hn
        simp only [List.cons.injEq, and_true] at he
        obtain ⟨rfl, rfl⟩ := he
        unfold PeripheryChips.addRange
        rw [if_pos ⟨by omega, hx⟩]
        rfl
      rw [← pushRange_iterate]
      exact (repeatM_ok (P := fun a : PeripheryChips => a.rangeMaxBits = c.rangeMaxBits) key n c rfl).1

theorem applyTuple_ok {c : PeripheryChips} (hc : c.tuple.isSome) {n : ℕ} {args : List ℕ}
    (hl : args.length = 2) (h : n ≠ 0 → TupleEntry c.tupleSizes args) :
    repeatM (fun c : PeripheryChips => c.addTuple args) n c = .ok (c.pushTuple n args) := by
  match args, hl with
  | [x, y], _ =>
    by_cases hn : n = 0
    · subst hn
      have := pushTuple_iterate c 0 [x, y]
      rw [← this]
      rfl
    · have key : ∀ a : PeripheryChips, (a.tuple.isSome ∧ a.tupleSizes = c.tupleSizes) →
          a.addTuple [x, y] = .ok (a.pushTuple 1 [x, y]) ∧
            ((a.pushTuple 1 [x, y]).tuple.isSome ∧ (a.pushTuple 1 [x, y]).tupleSizes = c.tupleSizes) := by
        rintro a ⟨ha, hs⟩
        obtain ⟨l, hl⟩ := Option.isSome_iff_exists.1 ha
        refine ⟨?_, by simp [PeripheryChips.pushTuple, hl], hs⟩
        obtain ⟨x', y', he, hx, hy⟩ := h hn
        simp only [List.cons.injEq, and_true] at he
        obtain ⟨rfl, rfl⟩ := he
        simp [PeripheryChips.addTuple, PeripheryChips.pushTuple, hl, hs, hx, hy]
      rw [← pushTuple_iterate]
      exact (repeatM_ok (P := fun a : PeripheryChips => a.tuple.isSome ∧ a.tupleSizes = c.tupleSizes)
        key n c ⟨hc, rfl⟩).1

theorem replayMessage_ok {p : ℕ} {ids : PeripheryBusIds} (hids : ids.Apart) {c : PeripheryChips}
    (hc : c.Serves ids) {x : ℕ × ZMod p × List (ZMod p)} (hx : AllowedMessage ids c x) :
    ∃ c', replayMessage ids c x = .ok c' ∧ c'.Serves ids ∧ c'.rangeMaxBits = c.rangeMaxBits ∧
      c'.tupleSizes = c.tupleSizes ∧ ∀ bus, 2 < bus → ∀ t, c'.multiplicity ids bus t =
        c.multiplicity ids bus t + if x.1 = bus ∧ x.2.2.map ZMod.val = t then x.2.1.val else 0 := by
  have hval : ∀ {P : Prop}, (x.2.1 ≠ 0 → P) → x.2.1.val ≠ 0 → P := by
    intro P h h0
    apply h
    intro h1
    rw [h1] at h0
    exact h0 ZMod.val_zero
  have hcount : ∀ t, List.count t (List.replicate x.2.1.val (x.2.2.map ZMod.val)) =
      if x.2.2.map ZMod.val = t then x.2.1.val else 0 := by
    intro t
    rw [List.count_replicate]
    simp only [beq_iff_eq]
  unfold replayMessage PeripheryChips.apply
  rcases hx with hx | ⟨hb, hl, hx⟩ | ⟨hb, hl, hx⟩ | ⟨hb, hl, hx⟩
  · have h16 : x.1 % 2 ^ 16 = x.1 := Nat.mod_eq_of_lt (by omega)
    rw [h16]
    rw [if_neg, if_neg, if_neg, if_pos hx]
    · refine ⟨c, rfl, hc, rfl, rfl, fun bus hbus t => ?_⟩
      rw [if_neg (by omega), add_zero]
    · intro h
      have := (hids.tuple _ h.symm).1
      omega
    · intro h
      have := hids.range.1
      omega
    · intro h
      have := (hids.bitwise _ h.symm).1
      omega
  · obtain ⟨b1, b2, b3⟩ := hids.bitwise _ hb
    rw [Nat.mod_eq_of_lt b2, if_pos hb.symm, applyBitwise_ok (hc.1 _ hb) (by simpa using hl) (hval hx)]
    obtain ⟨l, hl'⟩ := Option.isSome_iff_exists.1 (hc.1 _ hb)
    refine ⟨_, rfl, ⟨fun b h => by simp [PeripheryChips.pushBitwise, hl'], fun b h => hc.2 b h⟩, rfl, rfl,
      fun bus hbus t => ?_⟩
    unfold PeripheryChips.multiplicity
    by_cases he : x.1 = bus
    · subst he
      rw [if_pos hb, if_pos hb]
      simp [PeripheryChips.pushBitwise, hl', hcount]
    · have : ids.bitwiseLookup ≠ some bus := by
        rw [hb]
        simpa using he
      rw [if_neg this, if_neg this, if_neg (c := x.1 = bus ∧ _) (fun h => he h.1)]
      rfl
  · rw [Nat.mod_eq_of_lt (hb ▸ hids.range.2), if_neg (fun h => (hids.bitwise _ h.symm).2.2 hb.symm), if_pos hb.symm,
      applyRange_ok (by simpa using hl) (hval hx)]
    refine ⟨_, rfl, hc, rfl, rfl, fun bus hbus t => ?_⟩
    unfold PeripheryChips.multiplicity
    by_cases he : x.1 = bus
    · subst he
      have hnb : ids.bitwiseLookup ≠ some x.1 := fun h => (hids.bitwise _ h).2.2 hb.symm
      rw [if_neg hnb, if_neg hnb, if_pos hb, if_pos hb]
      simp [PeripheryChips.pushRange, hcount]
    · rw [if_neg (c := x.1 = bus ∧ _) (fun h => he h.1)]
      have : ids.rangeChecker ≠ bus := by
        rw [hb]
        exact he
      rw [if_neg this, if_neg this]
      rfl
  · obtain ⟨b1, b2, b3, b4⟩ := hids.tuple _ hb
    rw [Nat.mod_eq_of_lt b2, if_neg (fun h => b4 h.symm), if_neg b3, if_pos hb.symm,
      applyTuple_ok (hc.2 _ hb) (by simpa using hl) (hval hx)]
    obtain ⟨l, hl'⟩ := Option.isSome_iff_exists.1 (hc.2 _ hb)
    refine ⟨_, rfl, ⟨fun b h => hc.1 b h, fun b h => by simp [PeripheryChips.pushTuple, hl']⟩, rfl, rfl,
      fun bus hbus t => ?_⟩
    unfold PeripheryChips.multiplicity
    by_cases he : x.1 = bus
    · subst he
      rw [if_neg b4, if_neg b4, if_neg (Ne.symm b3), if_neg (Ne.symm b3), if_pos hb, if_pos hb]
      simp [PeripheryChips.pushTuple, hl', hcount]
    · rw [if_neg (c := x.1 = bus ∧ _) (fun h => he h.1)]
      have : ids.tupleRangeChecker ≠ some bus := by
        rw [hb]
        simpa using he
      rw [if_neg (c := ids.tupleRangeChecker = some bus) this, if_neg (c := ids.tupleRangeChecker = some bus) this]
      rfl

theorem replay_ok {p : ℕ} {ids : PeripheryBusIds} (hids : ids.Apart) (ms : List (ℕ × ZMod p × List (ZMod p)))
    {c : PeripheryChips} (hc : c.Serves ids) (hx : ∀ x ∈ ms, AllowedMessage ids c x) :
    ∃ c', ms.foldlM (replayMessage ids) c = .ok c' ∧ ∀ bus, 2 < bus → ∀ t, c'.multiplicity ids bus t =
        c.multiplicity ids bus t + totalSentNat bus t ms := by
  induction ms generalizing c with
  | nil => exact ⟨c, rfl, fun _ _ _ => rfl⟩
  | cons x ms ih =>
    obtain ⟨c1, h1, h2, h3, h4, h5⟩ := replayMessage_ok hids hc (hx x List.mem_cons_self)
    obtain ⟨c2, h6, h7⟩ := ih h2 fun y hy => by
      have := hx y (List.mem_cons_of_mem _ hy)
      unfold AllowedMessage at this ⊢
      rw [h3, h4]
      exact this
    refine ⟨c2, ?_, fun bus hb t => ?_⟩
    · rw [List.foldlM_cons, h1]
      exact h6
    · rw [h7 bus hb t, h5 bus hb t, totalSentNat, Nat.add_assoc]

theorem totalSentNat_cast {p : ℕ} [NeZero p] (bus : ℕ) (payload : List (ZMod p))
    (ms : List (ℕ × ZMod p × List (ZMod p))) :
    ((totalSentNat bus (payload.map ZMod.val) ms : ℕ) : ZMod p) = totalSent bus payload ms := by
  have hinj : ∀ l : List (ZMod p), l.map ZMod.val = payload.map ZMod.val ↔ l = payload := fun l =>
    ⟨fun h => (ZMod.val_injective p).list_map h, fun h => h ▸ rfl⟩
  induction ms with
  | nil => simp [totalSentNat, totalSent]
  | cons x ms ih =>
    rw [totalSentNat, totalSent, Nat.cast_add, ih]
    congr 1
    by_cases h : x.1 = bus ∧ x.2.2 = payload
    · rw [if_pos h, if_pos ⟨h.1, (hinj _).2 h.2⟩]
      exact ZMod.natCast_rightInverse x.2.1
    · rw [if_neg h, if_neg fun h' => h ⟨h'.1, (hinj _).1 h'.2⟩]
      exact Nat.cast_zero

theorem totalSent_append {p : ℕ} (bus : ℕ) (payload : List (ZMod p))
    (a b : List (ℕ × ZMod p × List (ZMod p))) :
    totalSent bus payload (a ++ b) = totalSent bus payload a + totalSent bus payload b := by
  induction a with
  | nil => simp [totalSent]
  | cons x a ih =>
    rw [List.cons_append, totalSent, totalSent, ih, add_assoc]

theorem totalSent_zero {p : ℕ} (bus : ℕ) (payload : List (ZMod p))
    {ms : List (ℕ × ZMod p × List (ZMod p))} (h : ∀ x ∈ ms, x.2.1 = 0) : totalSent bus payload ms = 0 := by
  induction ms with
  | nil => rfl
  | cons x ms ih =>
    rw [totalSent, ih fun y hy => h y (List.mem_cons_of_mem _ hy), h x List.mem_cons_self]
    simp

end Verif
