import Verif.Proofs.GpuRun
import Verif.Proofs.Periphery

/-!
# Proofs about the lookups of the GPU
-/

set_option linter.unusedSectionVars false

namespace Verif

/-! ## Places of entries -/

section
variable {q : GpuPeriphery} {c : PeripheryChips}

/-- The buses are different. -/
structure GpuPeriphery.Apart (q : GpuPeriphery) : Prop where
  rt : q.rangeBus ≠ q.tupleBus
  rb : q.rangeBus ≠ q.bitwiseBus
  tb : q.tupleBus ≠ q.bitwiseBus
  r2 : 2 < q.rangeBus
  t2 : 2 < q.tupleBus
  b2 : 2 < q.bitwiseBus

theorem TablePlace.bus_gt (hq : q.Apart) {bus : ℕ} {entry : List ℕ} {t : GpuTable} {i : ℕ}
    (h : TablePlace q c bus entry t i) : 2 < bus := by
  cases h
  · exact hq.r2
  · exact hq.t2
  · exact hq.b2
  · exact hq.b2

theorem TablePlace.functional (hq : q.Apart) {bus : ℕ} {entry : List ℕ} {t t' : GpuTable} {i i' : ℕ}
    (h : TablePlace q c bus entry t i) (h' : TablePlace q c bus entry t' i') : t = t' ∧ i = i' := by
  have h1 := hq.rt
  have h2 := hq.rb
  have h3 := hq.tb
  generalize hb : bus = b at h'
  generalize he : entry = e at h'
  cases h <;> cases h' <;> simp_all

theorem range_index {x x' bits bits' : ℕ} (hx : x < 2 ^ bits) (hx' : x' < 2 ^ bits')
    (h : 2 ^ bits + x - 1 = 2 ^ bits' + x' - 1) : x = x' ∧ bits = bits' := by
  have p1 : 0 < 2 ^ bits := Nat.two_pow_pos _
  have p2 : 0 < 2 ^ bits' := Nat.two_pow_pos _
  have e : bits = bits' := by
    rcases Nat.lt_trichotomy bits bits' with hlt | he | hlt
    · have : 2 ^ (bits + 1) ≤ 2 ^ bits' := Nat.pow_le_pow_right (by omega) hlt
      rw [Nat.pow_succ] at this
      omega
    · exact he
    · have : 2 ^ (bits' + 1) ≤ 2 ^ bits := Nat.pow_le_pow_right (by omega) hlt
      rw [Nat.pow_succ] at this
      omega
  subst e
  omega

theorem TablePlace.injective {bus bus' : ℕ} {entry entry' : List ℕ} {t : GpuTable} {i : ℕ}
    (h : TablePlace q c bus entry t i) (h' : TablePlace q c bus' entry' t i) : bus = bus' ∧ entry = entry' := by
  generalize ht : t = t' at h'
  generalize hi : i = i' at h'
  cases h with
  | range x bits hb hx =>
    cases h' with
    | range x' bits' hb' hx' =>
      obtain ⟨rfl, rfl⟩ := range_index hx hx' hi
      exact ⟨rfl, rfl⟩
    | tuple => cases ht
    | bitwiseRange => cases ht
    | bitwiseXor => cases ht
  | tuple x y hx hy =>
    cases h' with
    | range => cases ht
    | tuple x' y' hx' hy' =>
      obtain ⟨rfl, rfl⟩ := cell_inj hy hy' hi
      exact ⟨rfl, rfl⟩
    | bitwiseRange => cases ht
    | bitwiseXor => cases ht
  | bitwiseRange x y hx hy =>
    cases h' with
    | range => cases ht
    | tuple => cases ht
    | bitwiseRange x' y' hx' hy' =>
      obtain ⟨rfl, rfl⟩ := cell_inj hy hy' hi
      exact ⟨rfl, rfl⟩
    | bitwiseXor => cases ht
  | bitwiseXor x y hx hy =>
    cases h' with
    | range => cases ht
    | tuple => cases ht
    | bitwiseRange => cases ht
    | bitwiseXor x' y' hx' hy' =>
      obtain ⟨rfl, rfl⟩ := cell_inj hy hy' hi
      exact ⟨rfl, rfl⟩

/-- The tables of counters are large enough. -/
structure GpuPeriphery.Fits (q : GpuPeriphery) (c : PeripheryChips) : Prop where
  bins : 2 ^ (c.rangeMaxBits + 1) - 1 ≤ q.rangeBins
  word : q.rangeBins < 2 ^ 32
  sizes : q.tupleSizes = c.tupleSizes
  tuple : c.tupleSizes.1 * c.tupleSizes.2 < 2 ^ 32

theorem range_place_lt {x bits M : ℕ} (hb : bits ≤ M) (hx : x < 2 ^ bits) :
    2 ^ bits + x - 1 < 2 ^ (M + 1) - 1 := by
  have h1 : 2 ^ (bits + 1) ≤ 2 ^ (M + 1) := Nat.pow_le_pow_right (by omega) (by omega)
  rw [Nat.pow_succ] at h1
  have : 0 < 2 ^ bits := Nat.two_pow_pos _
  omega

theorem range_word {a x : ℕ} (ha : 0 < a) (h : a + x - 1 < 2 ^ 32) : (a + x + 2 ^ 32 - 1) % 2 ^ 32 = a + x - 1 := by
  have e : a + x + 2 ^ 32 - 1 = (a + x - 1) + 2 ^ 32 := by omega
  rw [e, Nat.add_mod_right, Nat.mod_eq_of_lt h]

theorem TablePlace.lt (hf : q.Fits c) {bus : ℕ} {entry : List ℕ} {t : GpuTable} {i : ℕ}
    (h : TablePlace q c bus entry t i) : i < q.bins t := by
  cases h with
  | range x bits hb hx =>
    have := range_place_lt hb hx
    have := hf.bins
    simp only [GpuPeriphery.bins]
    omega
  | tuple x y hx hy =>
    simp only [GpuPeriphery.bins]
    rw [hf.sizes, Nat.mod_eq_of_lt hf.tuple]
    exact cell_lt hy hx
  | bitwiseRange x y hx hy =>
    simp only [GpuPeriphery.bins]
    omega
  | bitwiseXor x y hx hy =>
    simp only [GpuPeriphery.bins]
    omega

/-! ## Counters -/

theorem addCount_fold (l : List (GpuTable × ℕ)) (h : ∀ x ∈ l, x.2 < q.bins x.1) (hist : GpuTable → ℕ → ℕ) :
    ∃ hist', l.foldlM (addCount q) hist = some hist' ∧
      (∀ t i, l.count (t, i) = 0 → hist' t i = hist t i) ∧
      ∀ t i, hist t i < 2 ^ 32 → hist' t i = (hist t i + l.count (t, i)) % 2 ^ 32 := by
  induction l generalizing hist with
  | nil => exact ⟨hist, rfl, fun _ _ _ => rfl, fun t i hh => by rw [List.count_nil, Nat.add_zero, Nat.mod_eq_of_lt hh]⟩
  | cons x l ih =>
    have hx := h x List.mem_cons_self
    obtain ⟨hist', e1, e2, e3⟩ := ih (fun y hy => h y (List.mem_cons_of_mem _ hy))
      fun t i => if t = x.1 ∧ i = x.2 then (hist t i + 1) % 2 ^ 32 else hist t i
    refine ⟨hist', ?_, ?_, ?_⟩
    · rw [List.foldlM_cons, addCount, if_pos hx]
      exact e1
    · intro t i h0
      rw [List.count_cons] at h0
      have hne : ¬ (t = x.1 ∧ i = x.2) := by
        rintro ⟨rfl, rfl⟩
        simp at h0
      rw [e2 t i (by omega), if_neg hne]
    · intro t i hh
      by_cases hxt : t = x.1 ∧ i = x.2
      · rw [e3 t i (by rw [if_pos hxt]; exact Nat.mod_lt _ (by norm_num)), if_pos hxt]
        obtain ⟨rfl, rfl⟩ := hxt
        rw [List.count_cons_self, Nat.mod_add_mod]
        congr 1
        omega
      · rw [e3 t i (by rw [if_neg hxt]; exact hh), if_neg hxt, List.count_cons_of_ne]
        rintro rfl
        exact hxt ⟨rfl, rfl⟩

end

/-! ## The counts of a thread -/

section
variable {p : ℕ} [Fact p.Prime] {q : GpuPeriphery} {c : PeripheryChips} {ids : PeripheryBusIds}

theorem gpuBusArg_ok {columns : List ℕ} {H r : ℕ} (hr : r < H) (hs : columns.length * H ≤ 2 ^ 32)
    {b : DeviceBuffer (ZMod p)} (hb : b.size = columns.length * H) {spans : List ExprSpan} {code : List ℕ}
    {x : DevInteraction} {k : ℕ} {e : AlgExpr (ZMod p) ℕ} (href : ∀ r ∈ e.refs, r ∈ columns)
    (hspan : ∃ span, spans[x.argsIndexOff + k]? = some span ∧
      ∀ tail, spanCode (code ++ tail) span = exprCode columns H e) (hfit : e.stackNeed ≤ stackCapacity) :
    gpuBusArg spans code b r x k =
      some (e.value (columnValue columns (rowOf H columns.length b r))).val := by
  obtain ⟨span, h1, h2⟩ := hspan
  have h2 := h2 []
  rw [List.append_nil] at h2
  have hv := (evalCode_expr (columns := columns) (height := H) (r := r) (read := b.read)
    (σ := columnValue columns (rowOf H columns.length b r)) e (fun id hid =>
      rowRead_read (by omega) hb _ _ (rowRead_column hr hs (rowOf_length ..) (href id hid))) [] []).1
    (by rw [List.length_nil, Nat.zero_add]; exact hfit)
  rw [List.append_nil, ← h2] at hv
  rw [gpuBusArg, h1]
  simp only [Option.bind_eq_bind, Option.bind_some]
  have hv' : evalArg span code b.read r =
      some (e.value (columnValue columns (rowOf H columns.length b r))) := by
    rw [evalArg]
    refine hv.trans ?_
    simp [evalCode]
  rw [hv']
  rfl

theorem gpuBusCounts_range {spans : List ExprSpan} {code : List ℕ} {b : DeviceBuffer (ZMod p)} {r : ℕ}
    {x : DevInteraction} {m v0 v1 : ℕ} (hm : gpuBusArg spans code b r x 0 = some m) (h0 : ¬ m = 0)
    (hb : x.busId = q.rangeBus) (k0 : gpuBusArg spans code b r x 1 = some v0)
    (k1 : gpuBusArg spans code b r x 2 = some v1) : gpuBusCounts q spans code b r x =
      some (List.replicate m (.range, (2 ^ v1 % 2 ^ 32 + v0 + 2 ^ 32 - 1) % 2 ^ 32)) := by
  rw [gpuBusCounts, hm, Option.bind_eq_bind, Option.bind_some, if_neg h0, if_pos hb, k0, Option.bind_some, k1, Option.bind_some]

theorem gpuBusCounts_tuple {spans : List ExprSpan} {code : List ℕ} {b : DeviceBuffer (ZMod p)} {r : ℕ}
    {x : DevInteraction} {m v0 v1 : ℕ} (hm : gpuBusArg spans code b r x 0 = some m) (h0 : ¬ m = 0)
    (hb' : x.busId ≠ q.rangeBus) (hb : x.busId = q.tupleBus) (k0 : gpuBusArg spans code b r x 1 = some v0)
    (k1 : gpuBusArg spans code b r x 2 = some v1) : gpuBusCounts q spans code b r x =
      some (List.replicate m (.tuple, (v0 * q.tupleSizes.2 + v1) % 2 ^ 32)) := by
  rw [gpuBusCounts, hm, Option.bind_eq_bind, Option.bind_some, if_neg h0, if_neg hb', if_pos hb, k0, Option.bind_some, k1, Option.bind_some]

theorem gpuBusCounts_bitwise {spans : List ExprSpan} {code : List ℕ} {b : DeviceBuffer (ZMod p)} {r : ℕ}
    {x : DevInteraction} {m v0 v1 v3 : ℕ} (hm : gpuBusArg spans code b r x 0 = some m) (h0 : ¬ m = 0)
    (hb' : x.busId ≠ q.rangeBus) (hb2 : x.busId ≠ q.tupleBus) (hb : x.busId = q.bitwiseBus)
    (k0 : gpuBusArg spans code b r x 1 = some v0) (k1 : gpuBusArg spans code b r x 2 = some v1)
    (k3 : gpuBusArg spans code b r x 4 = some v3) : gpuBusCounts q spans code b r x =
      if v3 = 0 then some (List.replicate m (.bitwiseRange, v0 * 256 + v1))
      else if v3 = 1 then some (List.replicate m (.bitwiseXor, v0 * 256 + v1)) else none := by
  rw [gpuBusCounts, hm, Option.bind_eq_bind, Option.bind_some, if_neg h0, if_neg hb', if_neg hb2, if_pos hb, k0, Option.bind_some, k1, Option.bind_some, k3, Option.bind_some]

theorem gpuBusCounts_other {spans : List ExprSpan} {code : List ℕ} {b : DeviceBuffer (ZMod p)} {r : ℕ}
    {x : DevInteraction} {m : ℕ} (hm : gpuBusArg spans code b r x 0 = some m)
    (h : m = 0 ∨ x.busId ≠ q.rangeBus ∧ x.busId ≠ q.tupleBus ∧ x.busId ≠ q.bitwiseBus) :
    gpuBusCounts q spans code b r x = some [] := by
  rw [gpuBusCounts, hm, Option.bind_eq_bind, Option.bind_some]
  by_cases h0 : m = 0
  · rw [if_pos h0]
  · rw [if_neg h0]
    rcases h with h | ⟨h1, h2, h3⟩
    · exact absurd h h0
    · rw [if_neg h1, if_neg h2, if_neg h3]

/-- What one interaction counts. -/
theorem gpuBusCounts_ok (hq : q.Apart) (hf : q.Fits c) (hids1 : q.rangeBus = ids.rangeChecker)
    (hids2 : ids.tupleRangeChecker = some q.tupleBus) (hids3 : ids.bitwiseLookup = some q.bitwiseBus)
    {spans : List ExprSpan} {code : List ℕ} {b : DeviceBuffer (ZMod p)} {r : ℕ} {x : DevInteraction}
    {μ : ℕ × ZMod p × List (ZMod p)} (hbus : x.busId = μ.1)
    (hm : gpuBusArg spans code b r x 0 = some μ.2.1.val)
    (ha : ∀ (k : ℕ) v, μ.2.2[k]? = some v → gpuBusArg spans code b r x (k + 1) = some v.val)
    (hal : AllowedMessage ids c μ) :
    ∃ l, gpuBusCounts q spans code b r x = some l ∧
      (∀ y ∈ l, ∃ bus entry, TablePlace q c bus entry y.1 y.2) ∧
      ∀ bus entry t i, TablePlace q c bus entry t i →
        l.count (t, i) = if μ.1 = bus ∧ μ.2.2.map ZMod.val = entry then μ.2.1.val else 0 := by
  have hsingle : ∀ t0 i0, TablePlace q c μ.1 (μ.2.2.map ZMod.val) t0 i0 →
      gpuBusCounts q spans code b r x = some (List.replicate μ.2.1.val (t0, i0)) →
      ∃ l, gpuBusCounts q spans code b r x = some l ∧
        (∀ y ∈ l, ∃ bus entry, TablePlace q c bus entry y.1 y.2) ∧
        ∀ bus entry t i, TablePlace q c bus entry t i →
          l.count (t, i) = if μ.1 = bus ∧ μ.2.2.map ZMod.val = entry then μ.2.1.val else 0 := by
    intro t0 i0 hp he
    refine ⟨_, he, fun y hy => ?_, fun bus entry t i hp' => ?_⟩
    · rw [(List.mem_replicate.1 hy).2]
      exact ⟨_, _, hp⟩
    · rw [List.count_replicate]
      by_cases hti : (t0, i0) = (t, i)
      · cases hti
        obtain ⟨e1, e2⟩ := hp.injective hp'
        rw [if_pos (by simp), if_pos ⟨e1, e2⟩]
      · rw [if_neg (by simpa using hti), if_neg]
        rintro ⟨rfl, rfl⟩
        obtain ⟨rfl, rfl⟩ := hp.functional hq hp'
        exact hti rfl
  by_cases h0 : μ.2.1 = 0
  · refine ⟨[], ?_, by simp, fun bus entry t i _ => ?_⟩
    · exact gpuBusCounts_other hm (.inl ((ZMod.val_eq_zero _).2 h0))
    · simp [h0]
  · have h0' : ¬ μ.2.1.val = 0 := fun hc => h0 ((ZMod.val_eq_zero _).1 hc)
    rcases hal with h | ⟨h1, h2, h3⟩ | ⟨h1, h2, h3⟩ | ⟨h1, h2, h3⟩
    · refine ⟨[], ?_, by simp, fun bus entry t i hp => ?_⟩
      · have a1 := hq.r2
        have a2 := hq.t2
        have a3 := hq.b2
        exact gpuBusCounts_other hm (.inr ⟨by omega, by omega, by omega⟩)
      · have := hp.bus_gt hq
        rw [if_neg (by omega)]
        rfl
    · rw [hids3] at h1
      have h1 : q.bitwiseBus = μ.1 := Option.some.inj h1
      obtain ⟨x', y', hx', hy', he⟩ := h3 h0
      obtain ⟨ad, hμ⟩ : ∃ l, μ.2.2 = l := ⟨_, rfl⟩
      match ad, hμ with
      | [a0, a1, a2, a3], hμ =>
        have k0 := ha 0 a0 (by rw [hμ]; rfl)
        have k1 := ha 1 a1 (by rw [hμ]; rfl)
        have k3 := ha 3 a3 (by rw [hμ]; rfl)
        have n1 := hq.rb
        have n2 := hq.tb
        rcases he with he | he
        · refine hsingle .bitwiseRange (x' * 256 + y') ?_ ?_
          · rw [he, ← h1]
            exact .bitwiseRange x' y' hx' hy'
          · rw [hμ] at he
            simp only [List.map_cons, List.map_nil, List.cons.injEq, and_true] at he
            rw [gpuBusCounts_bitwise hm h0' (by omega) (by omega) (by omega) k0 k1 k3, if_pos he.2.2.2, he.1, he.2.1]
        · refine hsingle .bitwiseXor (x' * 256 + y') ?_ ?_
          · rw [he, ← h1]
            exact .bitwiseXor x' y' hx' hy'
          · rw [hμ] at he
            simp only [List.map_cons, List.map_nil, List.cons.injEq, and_true] at he
            rw [gpuBusCounts_bitwise hm h0' (by omega) (by omega) (by omega) k0 k1 k3, if_neg (by omega),
              if_pos he.2.2.2, he.1, he.2.1]
      | [], hμ => rw [hμ] at h2; simp at h2
      | [_], hμ => rw [hμ] at h2; simp at h2
      | [_, _], hμ => rw [hμ] at h2; simp at h2
      | [_, _, _], hμ => rw [hμ] at h2; simp at h2
      | _ :: _ :: _ :: _ :: _ :: _, hμ => rw [hμ] at h2; simp at h2
    · obtain ⟨x', bits, he, hx', hy'⟩ := h3 h0
      obtain ⟨ad, hμ⟩ : ∃ l, μ.2.2 = l := ⟨_, rfl⟩
      match ad, hμ with
      | [a0, a1], hμ =>
        have k0 := ha 0 a0 (by rw [hμ]; rfl)
        have k1 := ha 1 a1 (by rw [hμ]; rfl)
        refine hsingle .range (2 ^ bits + x' - 1) ?_ ?_
        · rw [he, ← h1, ← hids1]
          exact .range x' bits hx' hy'
        · rw [hμ] at he
          simp only [List.map_cons, List.map_nil, List.cons.injEq, and_true] at he
          rw [gpuBusCounts_range hm h0' (by omega) k0 k1, he.1, he.2]
          have l1 := range_place_lt hx' hy'
          have l2 := hf.bins
          have l3 := hf.word
          have l4 : 2 ^ bits < 2 ^ 32 := by
            have : 0 < 2 ^ bits := Nat.two_pow_pos _
            omega
          have l5 : 0 < 2 ^ bits := Nat.two_pow_pos _
          rw [Nat.mod_eq_of_lt l4, range_word l5 (by omega)]
      | [], hμ => rw [hμ] at h2; simp at h2
      | [_], hμ => rw [hμ] at h2; simp at h2
      | _ :: _ :: _ :: _, hμ => rw [hμ] at h2; simp at h2
    · rw [hids2] at h1
      have h1 : q.tupleBus = μ.1 := Option.some.inj h1
      obtain ⟨x', y', he, hx', hy'⟩ := h3 h0
      obtain ⟨ad, hμ⟩ : ∃ l, μ.2.2 = l := ⟨_, rfl⟩
      match ad, hμ with
      | [a0, a1], hμ =>
        have k0 := ha 0 a0 (by rw [hμ]; rfl)
        have k1 := ha 1 a1 (by rw [hμ]; rfl)
        have n1 := hq.rt
        refine hsingle .tuple (x' * c.tupleSizes.2 + y') ?_ ?_
        · rw [he, ← h1]
          exact .tuple x' y' hx' hy'
        · rw [hμ] at he
          simp only [List.map_cons, List.map_nil, List.cons.injEq, and_true] at he
          rw [gpuBusCounts_tuple hm h0' (by omega) (by omega) k0 k1, he.1, he.2, hf.sizes]
          have l1 := cell_lt hy' hx'
          have l2 := hf.tuple
          rw [Nat.mod_eq_of_lt (by omega)]
      | [], hμ => rw [hμ] at h2; simp at h2
      | [_], hμ => rw [hμ] at h2; simp at h2
      | _ :: _ :: _ :: _, hμ => rw [hμ] at h2; simp at h2

theorem totalSentNat_append (bus : ℕ) (t : List ℕ) (l l' : List (ℕ × ZMod p × List (ZMod p))) :
    totalSentNat bus t (l ++ l') = totalSentNat bus t l + totalSentNat bus t l' := by
  induction l with
  | nil => simp [totalSentNat]
  | cons x l ih =>
    rw [List.cons_append, totalSentNat, totalSentNat, ih]
    omega

/-- Counts that add up. -/
def CountsSent (q : GpuPeriphery) (c : PeripheryChips) (l : List (GpuTable × ℕ))
    (ms : List (ℕ × ZMod p × List (ZMod p))) : Prop :=
  (∀ y ∈ l, ∃ bus entry, TablePlace q c bus entry y.1 y.2) ∧
  ∀ bus entry t i, TablePlace q c bus entry t i → l.count (t, i) = totalSentNat bus entry ms

theorem CountsSent.nil : CountsSent (p := p) q c [] [] := ⟨by simp, fun _ _ _ _ _ => rfl⟩

theorem CountsSent.append {l l' : List (GpuTable × ℕ)} {ms ms' : List (ℕ × ZMod p × List (ZMod p))}
    (h : CountsSent q c l ms) (h' : CountsSent q c l' ms') : CountsSent q c (l ++ l') (ms ++ ms') := by
  refine ⟨fun y hy => ?_, fun bus entry t i hp => ?_⟩
  · rcases List.mem_append.1 hy with hy | hy
    · exact h.1 y hy
    · exact h'.1 y hy
  · rw [List.count_append, totalSentNat_append, h.2 _ _ _ _ hp, h'.2 _ _ _ _ hp]

/-- The counts of the interactions of a row. -/
theorem gpuRowCounts_ok {spans : List ExprSpan} {code : List ℕ} {b : DeviceBuffer (ZMod p)} {r : ℕ}
    {xs : List DevInteraction} {ms : List (ℕ × ZMod p × List (ZMod p))}
    (h : List.Forall₂ (fun x μ => ∃ l, gpuBusCounts q spans code b r x = some l ∧ CountsSent q c l [μ]) xs ms) :
    ∃ l, xs.mapM (gpuBusCounts q spans code b r) = some l ∧ CountsSent q c l.flatten ms := by
  induction h with
  | nil => exact ⟨[], rfl, .nil⟩
  | @cons x μ xs ms h0 _ ih =>
    obtain ⟨l, e1, e2⟩ := h0
    obtain ⟨l', e3, e4⟩ := ih
    refine ⟨l :: l', ?_, e2.append e4⟩
    rw [List.mapM_cons, e1, e3]
    rfl

/-- The counts of all threads. -/
theorem gpuThreads_ok {f : ℕ → Option (List (GpuTable × ℕ))} {calls : ℕ}
    {messages : List (List (ℕ × ZMod p × List (ZMod p)))} (hl : messages.length = calls)
    (h : ∀ r < calls, ∃ l ms, f r = some l ∧ messages[r]? = some ms ∧ CountsSent q c l ms)
    (h' : ∀ r, calls ≤ r → f r = some []) (n : ℕ) (hn : calls ≤ n) :
    ∃ threads, (List.range n).mapM f = some threads ∧ CountsSent q c threads.flatten messages.flatten := by
  have key : ∀ n, ∃ threads, (List.range n).mapM f = some threads ∧
      CountsSent q c threads.flatten (messages.take n).flatten := by
    intro n
    induction n with
    | zero => exact ⟨[], rfl, by simpa using CountsSent.nil⟩
    | succ n ih =>
      obtain ⟨threads, e1, e2⟩ := ih
      by_cases hlt : n < calls
      · obtain ⟨l, ms, g1, g2, g3⟩ := h n hlt
        refine ⟨threads ++ [l], ?_, ?_⟩
        · rw [List.range_succ, List.mapM_append, e1, List.mapM_cons, g1]
          rfl
        · rw [List.flatten_append, List.take_add_one, g2, List.flatten_append]
          simpa using e2.append g3
      · refine ⟨threads ++ [[]], ?_, ?_⟩
        · rw [List.range_succ, List.mapM_append, e1, List.mapM_cons, h' n (by omega)]
          rfl
        · rw [List.take_add_one, List.getElem?_eq_none (by omega)]
          simpa using e2
  obtain ⟨threads, e1, e2⟩ := key n
  refine ⟨threads, e1, ?_⟩
  rw [List.take_of_length_le (by omega)] at e2
  exact e2

end

end Verif
