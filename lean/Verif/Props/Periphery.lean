import Verif.Proofs.Periphery
import Verif.Props.TraceGen

/-!
# C69: The lookups of a precompile are balanced
-/

set_option linter.unusedSectionVars false

namespace Verif

/-- **C69.** On a row of the right width, the AIR has the constraints and the messages of the machine, where a column has
the value at its position in the row. -/
theorem C69_air {F : Type} [Field F] [DecidableEq F] (m : SymMachine F ℕ) {row : List F}
    (hl : row.length = m.mainColumns.length) :
    airEval m row = .ok (m.constraints.map (AlgExpr.value (columnValue m.mainColumns row)),
      (m.messages (columnValue m.mainColumns row)).map fun x => (x.1 % 2 ^ 16, x.2)) :=
  airEval_ok m hl

/-- **C69.** A row of another width is not accepted. -/
theorem C69_width {F : Type} [Field F] [DecidableEq F] (m : SymMachine F ℕ) {row : List F}
    (hl : row.length ≠ m.mainColumns.length) : airEval m row = .error .assertion := by
  unfold airEval
  simp only
  rw [if_pos (Ne.symm hl)]

section
variable {p : ℕ} [Fact p.Prime]

/-- **C69.** If the messages are allowed, replaying them does not panic, and each table entry of a lookup bus is
counted as often as it is sent. -/
theorem C69_counts {ids : PeripheryBusIds} (hids : ids.Apart) {c : PeripheryChips} (hc : c.Serves ids)
    {rows : List (List (ℕ × ZMod p × List (ZMod p)))}
    (hx : ∀ row ∈ rows, ∀ x ∈ row, AllowedMessage ids c x) :
    ∃ c', replayMessages ids c rows = .ok c' ∧ ∀ bus, 2 < bus → ∀ t, c'.multiplicity ids bus t =
      c.multiplicity ids bus t + totalSentNat bus t rows.flatten :=
  replay_ok hids _ hc fun x h => by
    obtain ⟨row, hr, hx'⟩ := List.mem_flatten.1 h
    exact hx row hr x hx'

variable {A I S R : Type} [LinearOrder A]

/-- **C69.** Let a precompile be executed and its trace be generated from the records of the original chips, for
assignments that satisfy the optimized machine `m0` and send only messages that the buses of the VM allow. Then trace
generation does not panic, every row of the matrix (also the rows of padding) satisfies all constraints of the AIR, and
the interactions of the AIR on all rows are balanced: on every lookup bus, the multiplicity of an entry of the table
increases by the sum of the multiplicities with which the AIR sends it. -/
theorem C69_balanced {step : I → S → Option (S × R)} {is : List I} {airs : List A} {subs : List (List (ℕ × ℕ))}
    {est : ℕ} (h1 : airs.length = subs.length) (h2 : is.length = airs.length) {log : List (CallLog S R)}
    (hruns : ∀ l ∈ log, Runs step is l.before l.records l.after) (hest : log.length ≤ est)
    {metas : List CachedMeta} (hm : cachedMetas airs subs = .ok metas) {ss : List S} {o : OriginalArenas A R}
    (ho : executeSegment step is airs subs metas est (log.map CallLog.before) none = .ok (ss, some o))
    {gen : A → List R → DummyTrace (ZMod p)} {width : A → ℕ} {row : A → R → List (ZMod p)}
    (hg : WritesRows gen width row) {chips : List A} (hchips : ∀ a ∈ airs, a ∈ chips)
    {m0 m : SymMachine (ZMod p) ℕ} {alloc alloc' : ColumnAllocator}
    (hguard : addGuards m0 alloc = .ok (m, alloc')) (hf : Fillable m subs) (hne : m.refs ≠ [])
    {σs : List (ℕ → ZMod p)}
    (hσ : List.Forall₂ (fun l σ => Explains m airs subs row l.records σ) log σs) (hm0 : ∀ σ ∈ σs, m0.Holds σ)
    {ids : PeripheryBusIds} (hids : ids.Apart) {c : PeripheryChips} (hc : c.Serves ids)
    (hallowed : ∀ σ ∈ σs, ∀ x ∈ m0.messages σ, AllowedMessage ids c x) :
    ∃ (rows : List (List (ZMod p))) (messages : List (List (ℕ × ZMod p × List (ZMod p)))) (c' : PeripheryChips)
      (evals : List (List (ZMod p) × List (ℕ × ZMod p × List (ZMod p)))),
      generateWitness gen chips (some o) airs subs m = .ok (rows.flatten, messages) ∧
      rows.length = nextPowerOfTwoOrZero log.length ∧
      replayMessages ids c messages = .ok c' ∧
      rows.mapM (airEval m) = .ok evals ∧
      (∀ e ∈ evals, ∀ v ∈ e.1, v = 0) ∧
      ∀ bus, 2 < bus → ∀ payload : List (ZMod p), (c'.multiplicity ids bus (payload.map ZMod.val) : ZMod p) =
        c.multiplicity ids bus (payload.map ZMod.val) + totalSent bus payload (evals.flatMap Prod.snd) := by
  have hw := C64_matrix (F := ZMod p) h1 h2 hruns hest hm ho hg hchips hf hne hσ
  have hsat : ∀ σ ∈ σs, m.Holds (columnValue m.mainColumns (m.mainColumns.map σ)) ∧
      m.messages (columnValue m.mainColumns (m.mainColumns.map σ)) = m0.messages σ ∧
      m.messages σ = m0.messages σ := by
    intro σ hs
    obtain ⟨k, hk⟩ := List.mem_iff_getElem?.1 hs
    have hkl : k < log.length := by
      rw [hσ.length_eq]
      exact (List.getElem?_eq_some_iff.1 hk).1
    have he := hσ.get hkl (by rw [← hσ.length_eq]; exact hkl)
    have hget : σs.get ⟨k, by rw [← hσ.length_eq]; exact hkl⟩ = σ := (List.getElem?_eq_some_iff.1 hk).2
    rw [hget] at he
    have := C64_satisfied hguard he (hm0 σ hs)
    refine ⟨this.1, this.2.1, ?_⟩
    have h1' : σ alloc.nextPolyId = 1 := by
      have := he.computed (alloc.nextPolyId, .constant 1) (by
        rw [(C37_column hguard).1]
        simp)
      exact this
    exact (C37_active hguard h1').2
  have hz : columnValue m.mainColumns (List.replicate m.mainColumns.length 0) = fun _ => (0 : ZMod p) := by
    funext id
    simp [columnValue, List.getD_eq_getElem?_getD, List.getElem?_replicate]
    split <;> rfl
  obtain ⟨c', hc1, hc2⟩ := C69_counts (p := p) hids hc (rows := σs.map fun σ => m.messages σ) (by
    intro r hr x hx
    obtain ⟨σ, hs, rfl⟩ := List.mem_map.1 hr
    rw [(hsat σ hs).2.2] at hx
    exact hallowed σ hs x hx)
  set pad := List.replicate (nextPowerOfTwoOrZero log.length - log.length)
    (List.replicate m.mainColumns.length (0 : ZMod p)) with hpad
  set rows := σs.map (fun σ => m.mainColumns.map σ) ++ pad with hrows
  have hlen : ∀ r ∈ rows, r.length = m.mainColumns.length := by
    intro r hr
    rcases List.mem_append.1 hr with hr | hr
    · obtain ⟨σ, -, rfl⟩ := List.mem_map.1 hr
      simp
    · rw [(List.mem_replicate.1 hr).2]
      simp
  have heval := mapM_of_forall (l := rows) (f := airEval m)
    (fun r => (m.constraints.map (AlgExpr.value (columnValue m.mainColumns r)),
      (m.messages (columnValue m.mainColumns r)).map fun x => (x.1 % 2 ^ 16, x.2)))
    fun r hr => airEval_ok m (hlen r hr)
  refine ⟨rows, _, c', _, hw, ?_, hc1, heval, ?_, ?_⟩
  · rw [hrows, hpad]
    simp only [List.length_append, List.length_map, List.length_replicate]
    rw [← hσ.length_eq]
    have : log.length ≤ nextPowerOfTwoOrZero log.length := clog_ge _
    omega
  · intro e he v hv
    obtain ⟨r, hr, rfl⟩ := List.mem_map.1 he
    obtain ⟨k, hk, rfl⟩ := List.mem_map.1 hv
    rcases List.mem_append.1 hr with hr | hr
    · obtain ⟨σ, hs, rfl⟩ := List.mem_map.1 hr
      exact (hsat σ hs).1 k hk
    · rw [(List.mem_replicate.1 hr).2, hz]
      exact C37_padding hguard k hk
  · intro bus hb payload
    rw [hc2 bus hb, Nat.cast_add, totalSentNat_cast]
    congr 1
    rw [List.flatMap_map, hrows, List.flatMap_append, totalSent_append]
    have hp0 : totalSent bus payload (pad.flatMap fun r =>
        (m.messages (columnValue m.mainColumns r)).map fun x => (x.1 % 2 ^ 16, x.2)) = 0 := by
      refine totalSent_zero _ _ fun x hx => ?_
      obtain ⟨r, hr, hx⟩ := List.mem_flatMap.1 hx
      obtain ⟨y, hy, rfl⟩ := List.mem_map.1 hx
      rw [(List.mem_replicate.1 hr).2, hz] at hy
      exact C37_inactive hguard rfl (C37_padding hguard) y hy
    rw [hp0, add_zero]
    congr 1
    rw [List.flatMap_map, ← List.flatMap_def]
    have : ∀ l : List (ℕ → ZMod p), (∀ σ ∈ l, σ ∈ σs) → l.flatMap (fun σ => m.messages σ) = l.flatMap fun σ =>
        (m.messages (columnValue m.mainColumns (m.mainColumns.map σ))).map fun x => (x.1 % 2 ^ 16, x.2) := by
      intro l hl
      induction l with
      | nil => rfl
      | cons σ l ih =>
        rw [List.flatMap_cons, List.flatMap_cons, ih fun τ hτ => hl τ (List.mem_cons_of_mem _ hτ)]
        congr 1
        have hs := hl σ List.mem_cons_self
        rw [(hsat σ hs).2.1, (hsat σ hs).2.2]
        symm
        rw [List.map_congr_left (g := id)]
        · simp
        · intro x hx
          have : x.1 < 2 ^ 16 := by
            rcases hallowed σ hs x hx with h | ⟨h, -⟩ | ⟨h, -⟩ | ⟨h, -⟩
            · omega
            · exact (hids.bitwise _ h).2.1
            · exact h ▸ hids.range.2
            · exact (hids.tuple _ h).2.1
          rw [Nat.mod_eq_of_lt this]
          rfl
    exact this σs fun _ h => h

end

/-! ### A sample

One instruction on chip `0` whose row is `[r, 2 r]`. The optimized machine has the constraint `x1 = 2 x0` and requests that
`x0` has four bits and that `x0` and `x1` are bytes. Two calls, with the records 3 and 5. -/

def lookupSample : SymMachine (ZMod 17) ℕ where
  constraints := [.binary (.reference 1) .sub (.binary (.number 2) .mul (.reference 0))]
  bus := [⟨3, .number 1, [.reference 0, .number 4]⟩,
    ⟨6, .number 1, [.reference 0, .reference 1, .number 0, .number 0]⟩]
  derived := []

def lookupIds : PeripheryBusIds := ⟨3, some 6, some 7⟩

def lookupChips : PeripheryChips := ⟨some [], [[3, 4]], some [], 5, (4, 8)⟩

theorem lookupIds_apart : lookupIds.Apart where
  range := by decide
  bitwise := by
    intro b h
    cases h
    decide
  tuple := by
    intro b h
    cases h
    decide

example : lookupChips.Serves lookupIds := ⟨fun _ _ => rfl, fun _ _ => rfl⟩

def lookupRow (_ : ℕ) (r : ℕ) : List (ZMod 17) := [r, 2 * r]

def lookupGen (a : ℕ) (rs : List ℕ) : DummyTrace (ZMod 17) := ⟨2, rs.flatMap (lookupRow a)⟩

def lookupStep (_ : ℕ) (s : ℕ) : Option (ℕ × ℕ) := some (s + 1, s)

/-- The whole computation: the matrix, the chips after the replay, and the interactions of the AIR. -/
example : (match addGuards lookupSample ⟨[[0, 1]], 2⟩, cachedMetas [0] [[(0, 0), (1, 1)]] with
    | .ok (m, _), .ok metas =>
      match executeSegment lookupStep [7] [0] [[(0, 0), (1, 1)]] metas 2 [3, 5] none with
      | .ok (_, some o) =>
        match generateWitness lookupGen [0] (some o) [0] [[(0, 0), (1, 1)]] m with
        | .ok (values, messages) =>
          decide (values = [3, 6, 1, 5, 10, 1]) &&
          (match replayMessages lookupIds lookupChips messages with
          | .ok c => decide (c = ⟨some [[3, 6, 0, 0], [5, 10, 0, 0]], [[3, 4], [3, 4], [5, 4]], some [], 5, (4, 8)⟩)
          | _ => false) &&
          (match [[3, 6, 1], [5, 10, 1]].mapM (airEval m) with
          | .ok evals => decide (evals = [
              ([0, 0], [(3, 1, [3, 4]), (6, 1, [3, 6, 0, 0])]),
              ([0, 0], [(3, 1, [5, 4]), (6, 1, [5, 10, 0, 0])])])
          | _ => false)
        | _ => false
      | _ => false
    | _, _ => false) = true := by decide +kernel

/-- The messages of the first call are allowed. -/
example : ∀ x ∈ lookupSample.messages (fun v => ([3, 6, 1] : List (ZMod 17)).getD v 0),
    AllowedMessage lookupIds lookupChips x := by
  intro x hx
  simp only [SymMachine.messages, lookupSample, List.map_cons, List.map_nil, List.mem_cons, List.not_mem_nil,
    or_false] at hx
  rcases hx with rfl | rfl
  · exact .inr (.inr (.inl ⟨rfl, rfl, fun _ => ⟨3, 4, by decide, by decide, by decide⟩⟩))
  · exact .inr (.inl ⟨rfl, rfl, fun _ => ⟨3, 6, by decide, by decide, .inl (by decide)⟩⟩)

/-- An entry that is not in the table is counted as another one, without a panic: this is why the messages must be
allowed. -/
example : (match replayMessage (p := 17) lookupIds lookupChips (6, 1, [3, 6, 5, 0]) with
    | .ok c => decide (c.bitwise = some [[3, 6, 0, 0]])
    | _ => false) = true := by decide

end Verif
