import Verif.Proofs.Gpu

/-!
# Proofs about kernels: the order of the threads does not matter
-/

set_option linter.unusedSectionVars false

namespace Verif

section
variable {α : Type}

theorem flatten_set {threads : List (List α)} {i : ℕ} {a : α} {t : List α} (h : threads[i]? = some (a :: t)) :
    threads.flatten.Perm (a :: (threads.set i t).flatten) := by
  induction threads generalizing i with
  | nil => simp at h
  | cons x l ih =>
    cases i with
    | zero =>
      simp only [List.getElem?_cons_zero, Option.some.injEq] at h
      subst h
      simp
    | succ i =>
      simp only [List.getElem?_cons_succ] at h
      simp only [List.flatten_cons, List.set_cons_succ]
      exact ((ih h).append_left x).trans List.perm_middle

/-- An interleaving has all steps of all threads. -/
theorem Interleaving.perm {threads : List (List α)} {l : List α} (h : Interleaving threads l) :
    l.Perm threads.flatten := by
  induction h with
  | done h =>
    rw [List.flatten_eq_nil_iff.2 h]
  | step h _ ih => exact (ih.cons _).trans (flatten_set h).symm

/-- There always is an interleaving. -/
theorem Interleaving.exists (threads : List (List α)) : ∃ l, Interleaving threads l := by
  generalize hn : threads.flatten.length = n
  induction n generalizing threads with
  | zero =>
    refine ⟨[], .done ?_⟩
    exact List.flatten_eq_nil_iff.1 (List.eq_nil_of_length_eq_zero hn)
  | succ n ih =>
    have hne : ¬ ∀ t ∈ threads, t = [] := by
      intro h
      rw [List.flatten_eq_nil_iff.2 h] at hn
      simp at hn
    push Not at hne
    obtain ⟨t, ht, hne⟩ := hne
    obtain ⟨i, hi⟩ := List.mem_iff_getElem?.1 ht
    cases t with
    | nil => exact absurd rfl hne
    | cons a t =>
      have hl := (flatten_set hi).length_eq
      obtain ⟨l, hl'⟩ := ih (threads.set i t) (by rw [hn, List.length_cons] at hl; omega)
      exact ⟨a :: l, .step hi hl'⟩

/-- If only one thread has steps of some kind, these steps are in the order of this thread. -/
theorem Interleaving.filter {threads : List (List α)} {l : List α} (h : Interleaving threads l) (P : α → Bool) {i : ℕ}
    {t0 : List α} (hi : threads[i]? = some t0)
    (ho : ∀ (j : ℕ) t, j ≠ i → threads[j]? = some t → t.filter P = []) : l.filter P = t0.filter P := by
  induction h generalizing t0 with
  | done h =>
    rw [h t0 (List.mem_of_getElem? hi)]
  | @step threads j a t l h _ ih =>
    have hj : j < threads.length := (List.getElem?_eq_some_iff.1 h).1
    by_cases hji : j = i
    · subst hji
      rw [hi] at h
      cases h
      have := ih (t0 := t) (by rw [List.getElem?_set_self hj]) fun k u hk hu => by
        rw [List.getElem?_set_ne (Ne.symm hk)] at hu
        exact ho k u hk hu
      rw [List.filter_cons, List.filter_cons, this]
    · have h0 := ho j _ hji h
      have hPa : P a = false := by
        by_contra hc
        rw [List.filter_cons, if_pos (by simpa using hc)] at h0
        cases h0
      rw [List.filter_cons, if_neg (by simp [hPa])] at h0
      rw [List.filter_cons, if_neg (by simp [hPa])]
      refine ih (by rw [List.getElem?_set_ne hji]; exact hi) fun k u hk hu => ?_
      by_cases hkj : k = j
      · subst hkj
        rw [List.getElem?_set_self hj] at hu
        cases hu
        exact h0
      · rw [List.getElem?_set_ne (Ne.symm hkj)] at hu
        exact ho k u hk hu

theorem flatMap_single {β : Type} {l : List ℕ} (hn : l.Nodup) {r : ℕ} (X : List β) :
    l.flatMap (fun x => if x = r then X else []) = if r ∈ l then X else [] := by
  induction l with
  | nil => simp
  | cons y t ih =>
    rw [List.nodup_cons] at hn
    rw [List.flatMap_cons, ih hn.2]
    by_cases hy : y = r
    · subst hy
      simp [hn.1]
    · have hy' : ¬ r = y := fun h => hy h.symm
      simp [hy, hy']

theorem filter_row_items (items : List α) (x r : ℕ) :
    (items.map fun i => (x, i)).filter (fun y => decide (y.1 = r)) = if x = r then items.map fun i => (x, i) else [] := by
  split
  · rename_i h
    rw [List.filter_eq_self]
    intro y hy
    obtain ⟨i, -, rfl⟩ := List.mem_map.1 hy
    simpa using h
  · rename_i h
    rw [List.filter_eq_nil_iff]
    intro y hy
    obtain ⟨i, -, rfl⟩ := List.mem_map.1 hy
    simpa using h

theorem rowThreads_filter {T H : ℕ} (items : List α) {r tid : ℕ} (hr : r < H) :
    ((((List.range H).filter fun r => r % T = tid).flatMap fun r => items.map fun i => (r, i)).filter
      fun y => decide (y.1 = r)) = if r % T = tid then items.map fun i => (r, i) else [] := by
  rw [List.filter_flatMap]
  have : (fun x => List.filter (fun y => decide (y.1 = r)) (items.map fun i => (x, i))) =
      fun x => if x = r then items.map fun i => (r, i) else [] := by
    funext x
    rw [filter_row_items]
    split
    · rename_i h
      rw [h]
    · rfl
  rw [this, flatMap_single (List.Nodup.filter _ List.nodup_range)]
  simp [hr]

/-- The steps on a row, in any interleaving. -/
theorem interleaving_row {T H : ℕ} (hT : 0 < T) {items : List α} {l : List (ℕ × α)}
    (h : Interleaving (rowThreads T H items) l) {r : ℕ} (hr : r < H) :
    (l.filter fun y => decide (y.1 = r)).map Prod.snd = items := by
  have hm := Nat.mod_lt r hT
  rw [h.filter (fun y => decide (y.1 = r)) (i := r % T)
    (t0 := ((List.range H).filter fun x => x % T = r % T).flatMap fun r => items.map fun i => (r, i))
    (by rw [rowThreads, List.getElem?_map, List.getElem?_range hm]; rfl)
    (fun j t hj ht => by
      rw [rowThreads, List.getElem?_map] at ht
      have hjT : j < T := by
        by_contra hc
        rw [List.getElem?_eq_none (by simpa using hc)] at ht
        cases ht
      rw [List.getElem?_range hjT] at ht
      cases ht
      rw [rowThreads_filter items hr, if_neg (Ne.symm hj)]),
    rowThreads_filter items hr, if_pos rfl, List.map_map]
  exact List.map_id _

theorem interleaving_rows_lt {T H : ℕ} {items : List α} {l : List (ℕ × α)}
    (h : Interleaving (rowThreads T H items) l) : ∀ x ∈ l, x.1 < H := by
  intro x hx
  have := h.perm.mem_iff.1 hx
  obtain ⟨t, ht, hx'⟩ := List.mem_flatten.1 this
  obtain ⟨tid, -, rfl⟩ := List.mem_map.1 ht
  obtain ⟨r, hr, hx2⟩ := List.mem_flatMap.1 hx'
  obtain ⟨i, -, rfl⟩ := List.mem_map.1 hx2
  simpa using (List.mem_filter.1 hr).1

variable {F : Type}

/-- A row of a matrix on the device. -/
def rowOf (H W : ℕ) (b : DeviceBuffer F) (r : ℕ) : List F := (List.range W).map fun c => b.cell (c * H + r)

theorem rowOf_length (H W : ℕ) (b : DeviceBuffer F) (r : ℕ) : (rowOf H W b r).length = W := by simp [rowOf]

theorem rowOf_get {H W : ℕ} {b : DeviceBuffer F} {r c : ℕ} (hc : c < W) :
    (rowOf H W b r)[c]? = some (b.cell (c * H + r)) := by
  rw [rowOf, List.getElem?_map, List.getElem?_range hc]
  rfl

theorem cell_inj {H c c' r r' : ℕ} (hr : r < H) (hr' : r' < H) (h : c * H + r = c' * H + r') : c = c' ∧ r = r' := by
  have h1 : (c * H + r) / H = c := by
    rw [Nat.add_comm, Nat.add_mul_div_right _ _ (by omega), Nat.div_eq_of_lt hr, Nat.zero_add]
  have h2 : (c' * H + r') / H = c' := by
    rw [Nat.add_comm, Nat.add_mul_div_right _ _ (by omega), Nat.div_eq_of_lt hr', Nat.zero_add]
  rw [h, h2] at h1
  subst h1
  omega

theorem cell_lt {H W c r : ℕ} (hr : r < H) (hc : c < W) : c * H + r < W * H := by
  calc c * H + r < c * H + H := by omega
    _ = (c + 1) * H := by rw [Nat.add_mul, Nat.one_mul]
    _ ≤ W * H := Nat.mul_le_mul_right H hc

theorem write_row {H W : ℕ} {b : DeviceBuffer F} (hb : b.size = W * H) {r c : ℕ} (hr : r < H) (hc : c < W) (v : F) :
    ∃ b', b.write (c * H + r) v = some b' ∧ b'.size = W * H ∧ rowOf H W b' r = (rowOf H W b r).set c v ∧
      ∀ r' < H, r' ≠ r → rowOf H W b' r' = rowOf H W b r' := by
  refine ⟨⟨b.size, Function.update b.cell (c * H + r) v⟩, ?_, hb, ?_, ?_⟩
  · rw [DeviceBuffer.write, if_pos (by rw [hb]; exact cell_lt hr hc)]
  · apply List.ext_getElem?
    intro i
    rw [List.getElem?_set, rowOf_length]
    by_cases hi : i < W
    · rw [rowOf_get hi, rowOf_get hi]
      by_cases hci : c = i
      · subst hci
        simp [hc]
      · rw [if_neg hci]
        simp only
        rw [Function.update_of_ne]
        intro h
        exact hci (cell_inj hr hr h).1.symm
    · rw [List.getElem?_eq_none (by rw [rowOf_length]; omega), List.getElem?_eq_none (by rw [rowOf_length]; omega),
        if_neg (by omega)]
  · intro r' hr' hne
    apply List.map_congr_left
    intro i _
    simp only
    rw [Function.update_of_ne]
    intro h
    exact hne (cell_inj hr' hr h).2

/-- The rows after the steps in some order, if each step works on a row. -/
theorem kernel_rows {H W : ℕ} {step : DeviceBuffer F → ℕ × α → Option (DeviceBuffer F)}
    {rowStep : ℕ → List F → α → Option (List F)}
    (hlocal : ∀ b : DeviceBuffer F, b.size = W * H → ∀ r < H, ∀ a row', rowStep r (rowOf H W b r) a = some row' →
      ∃ b', step b (r, a) = some b' ∧ b'.size = W * H ∧ rowOf H W b' r = row' ∧
        ∀ r' < H, r' ≠ r → rowOf H W b' r' = rowOf H W b r')
    (l : List (ℕ × α)) (hl : ∀ x ∈ l, x.1 < H) (b : DeviceBuffer F) (hb : b.size = W * H) (R : ℕ → List F)
    (hR : ∀ r < H, ((l.filter fun y => decide (y.1 = r)).map Prod.snd).foldlM (rowStep r) (rowOf H W b r) =
      some (R r)) :
    ∃ b', l.foldlM step b = some b' ∧ b'.size = W * H ∧ ∀ r < H, rowOf H W b' r = R r := by
  induction l generalizing b with
  | nil =>
    refine ⟨b, rfl, hb, fun r hr => ?_⟩
    have := hR r hr
    simp at this
    exact this
  | cons x t ih =>
    obtain ⟨r, a⟩ := x
    have hr : r < H := hl _ List.mem_cons_self
    have h1 := hR r hr
    rw [List.filter_cons, if_pos (by simp), List.map_cons, List.foldlM_cons] at h1
    cases hrow : rowStep r (rowOf H W b r) a with
    | none => rw [hrow] at h1; cases h1
    | some row' =>
      rw [hrow] at h1
      obtain ⟨b1, e1, s1, r1, o1⟩ := hlocal b hb r hr a row' hrow
      obtain ⟨b2, e2, s2, r2⟩ := ih (fun y hy => hl y (List.mem_cons_of_mem _ hy)) b1 s1 fun r' hr' => by
        by_cases hrr : r' = r
        · subst hrr
          rw [r1]
          exact h1
        · rw [o1 r' hr' hrr]
          have := hR r' hr'
          rw [List.filter_cons, if_neg (by simpa using Ne.symm hrr)] at this
          exact this
      refine ⟨b2, ?_, s2, r2⟩
      rw [List.foldlM_cons, e1]
      exact e2

/-- The rows after a kernel, for any interleaving of its threads. -/
theorem kernel_interleaving {H W T : ℕ} (hT : 0 < T) {step : DeviceBuffer F → ℕ × α → Option (DeviceBuffer F)}
    {rowStep : ℕ → List F → α → Option (List F)}
    (hlocal : ∀ b : DeviceBuffer F, b.size = W * H → ∀ r < H, ∀ a row', rowStep r (rowOf H W b r) a = some row' →
      ∃ b', step b (r, a) = some b' ∧ b'.size = W * H ∧ rowOf H W b' r = row' ∧
        ∀ r' < H, r' ≠ r → rowOf H W b' r' = rowOf H W b r')
    {items : List α} {l : List (ℕ × α)} (h : Interleaving (rowThreads T H items) l)
    {b : DeviceBuffer F} (hb : b.size = W * H) {R : ℕ → List F}
    (hR : ∀ r < H, items.foldlM (rowStep r) (rowOf H W b r) = some (R r)) :
    ∃ b', l.foldlM step b = some b' ∧ b'.size = W * H ∧ ∀ r < H, rowOf H W b' r = R r :=
  kernel_rows hlocal l (interleaving_rows_lt h) b hb R fun r hr => by
    rw [interleaving_row hT h hr]
    exact hR r hr

theorem launchThreads_pos (H : ℕ) : 0 < launchThreads H := by
  unfold launchThreads
  simp only
  split <;> omega

end

/-! ## The steps of the kernels on a row -/

section
variable {F : Type} [Zero F]

/-- `apc_tracegen_kernel` on a row. -/
def tracegenRow (calls : ℕ) (airs : List (OriginalAir F)) (r : ℕ) (row : List F) (s : GpuSubst) : Option (List F) :=
  if s.apcCol < row.length then
    if r < calls then do
      let air ← airs[s.airIndex]?
      let v ← air.buffer.read (s.col * air.height + (s.row + r * air.rowBlockSize))
      some (row.set s.apcCol v)
    else some (row.set s.apcCol 0)
  else none

theorem tracegen_local {H W calls : ℕ} {airs : List (OriginalAir F)} (b : DeviceBuffer F) (hb : b.size = W * H) (r : ℕ)
    (hr : r < H) (s : GpuSubst) (row' : List F) (h : tracegenRow calls airs r (rowOf H W b r) s = some row') :
    ∃ b', tracegenStep H calls airs b (r, s) = some b' ∧ b'.size = W * H ∧ rowOf H W b' r = row' ∧
      ∀ r' < H, r' ≠ r → rowOf H W b' r' = rowOf H W b r' := by
  unfold tracegenRow at h
  rw [rowOf_length] at h
  split at h
  · rename_i hc
    unfold tracegenStep
    split at h
    · rename_i hcalls
      simp only
      rw [if_pos hcalls]
      cases ha : airs[s.airIndex]? with
      | none => rw [ha] at h; cases h
      | some air =>
        rw [ha] at h
        simp only [Option.bind_eq_bind, Option.bind_some] at h ⊢
        cases hv : air.buffer.read (s.col * air.height + (s.row + r * air.rowBlockSize)) with
        | none => rw [hv] at h; cases h
        | some v =>
          rw [hv] at h
          simp only [Option.bind_some] at h ⊢
          cases h
          exact write_row hb hr hc v
    · rename_i hcalls
      simp only
      rw [if_neg hcalls]
      cases h
      exact write_row hb hr hc 0
  · cases h

end

section
variable {p : ℕ}

/-- A cell of a row by its index in the matrix. -/
def rowRead (H r : ℕ) (row : List (ZMod p)) (i : ℕ) : Option (ZMod p) :=
  if i % H = r then row[i / H]? else none

/-- `apc_apply_derived_expr_kernel` on a row. -/
def derivedRow (H calls : ℕ) (bytecode : List ℕ) (r : ℕ) (row : List (ZMod p)) (s : DerivedExprSpec) :
    Option (List (ZMod p)) :=
  if s.colBase % H = 0 ∧ s.colBase / H < row.length then
    if r < calls then do
      let v ← evalArg s.span bytecode (rowRead H r row) r
      some (row.set (s.colBase / H) v)
    else some (row.set (s.colBase / H) 0)
  else none

theorem evalCode_mono {read read' : ℕ → Option (ZMod p)} (h : ∀ i v, read i = some v → read' i = some v) (r : ℕ)
    (code : List ℕ) (stack : List (ZMod p)) (v : ZMod p) (hv : evalCode read r code stack = some v) :
    evalCode read' r code stack = some v := by
  induction hn : code.length using Nat.strong_induction_on generalizing code stack with
  | _ n ih =>
    subst hn
    cases code with
    | nil => exact hv
    | cons op code =>
      have hrec : ∀ {x : Option (List (ZMod p))} {code' : List ℕ}, code'.length < (op :: code).length →
          (x.bind fun st => evalCode read r code' st) = some v →
          (x.bind fun st => evalCode read' r code' st) = some v := by
        intro x code' hl hx
        cases x with
        | none => cases hx
        | some st => exact ih _ hl code' st hx rfl
      cases hop : GpuOpCode.ofCode op with
      | none => simp [evalCode, hop] at hv
      | some o =>
        cases o with
        | pushApc =>
          cases code with
          | nil => simp [evalCode, hop] at hv
          | cons base code =>
            simp only [evalCode, hop, Option.bind_eq_bind] at hv ⊢
            cases hb : read (base + r) with
            | none => rw [hb] at hv; cases hv
            | some w =>
              rw [hb] at hv
              rw [h _ _ hb]
              exact hrec (by simp) hv
        | pushConst =>
          cases code with
          | nil => simp [evalCode, hop] at hv
          | cons u code =>
            simp only [evalCode, hop, Option.bind_eq_bind] at hv ⊢
            exact hrec (by simp) hv
        | add => simp only [evalCode, hop, Option.bind_eq_bind] at hv ⊢; exact hrec (by simp) hv
        | sub => simp only [evalCode, hop, Option.bind_eq_bind] at hv ⊢; exact hrec (by simp) hv
        | mul => simp only [evalCode, hop, Option.bind_eq_bind] at hv ⊢; exact hrec (by simp) hv
        | neg => simp only [evalCode, hop, Option.bind_eq_bind] at hv ⊢; exact hrec (by simp) hv
        | invOrZero => simp only [evalCode, hop, Option.bind_eq_bind] at hv ⊢; exact hrec (by simp) hv

theorem rowRead_read {H W r : ℕ} (hH : 0 < H) {b : DeviceBuffer (ZMod p)} (hb : b.size = W * H) (i : ℕ)
    (v : ZMod p) (h : rowRead H r (rowOf H W b r) i = some v) : b.read i = some v := by
  unfold rowRead at h
  split at h
  · rename_i hi
    have hlt : i / H < W := by
      by_contra hc
      rw [List.getElem?_eq_none (by rw [rowOf_length]; omega)] at h
      cases h
    rw [rowOf_get hlt] at h
    have he : i / H * H + r = i := by
      rw [← hi, Nat.mul_comm]
      exact Nat.div_add_mod i H
    rw [he] at h
    have hlt' : i < W * H := (Nat.div_lt_iff_lt_mul hH).1 hlt
    rw [DeviceBuffer.read, if_pos (by rw [hb]; exact hlt')]
    exact h
  · cases h

theorem derived_local {H W calls : ℕ} {bytecode : List ℕ} (b : DeviceBuffer (ZMod p)) (hb : b.size = W * H) (r : ℕ)
    (hr : r < H) (s : DerivedExprSpec) (row' : List (ZMod p))
    (h : derivedRow H calls bytecode r (rowOf H W b r) s = some row') :
    ∃ b', derivedStep calls bytecode b (r, s) = some b' ∧ b'.size = W * H ∧ rowOf H W b' r = row' ∧
      ∀ r' < H, r' ≠ r → rowOf H W b' r' = rowOf H W b r' := by
  unfold derivedRow at h
  rw [rowOf_length] at h
  split at h
  · rename_i hc
    have hcol : s.colBase / H * H = s.colBase := Nat.div_mul_cancel (Nat.dvd_of_mod_eq_zero hc.1)
    unfold derivedStep
    split at h
    · rename_i hcalls
      simp only
      rw [if_pos hcalls]
      cases hv : evalArg s.span bytecode (rowRead H r (rowOf H W b r)) r with
      | none => rw [hv] at h; cases h
      | some v =>
        rw [hv] at h
        cases h
        have hv' : evalArg s.span bytecode b.read r = some v :=
          evalCode_mono (fun i w hw => rowRead_read (by omega) hb i w hw) r _ _ v hv
        rw [hv']
        simp only [Option.bind_eq_bind, Option.bind_some]
        have := write_row hb hr hc.2 v
        rw [hcol] at this
        exact this
    · rename_i hcalls
      simp only
      rw [if_neg hcalls]
      cases h
      have := write_row hb hr hc.2 (0 : ZMod p)
      rw [hcol] at this
      exact this
  · cases h

end

end Verif
