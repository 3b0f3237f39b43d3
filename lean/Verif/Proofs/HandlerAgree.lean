import Verif.Spec.HandlerAccepts
import Verif.Proofs.OptimizerShape

/-! Two handlers that agree on the bus interactions that occur lead to the same results. -/

set_option linter.unusedSectionVars false

namespace Verif

open GExpr

variable {p : ℕ} {V W : Type}

theorem bind_congr_ok {ε α β : Type} {x x' : Except ε α} {f g : α → Except ε β} (hx : x = x')
    (hf : ∀ a, x = .ok a → f a = g a) : (x >>= f) = (x' >>= g) := by
  subst hx
  cases x with
  | error e => rfl
  | ok a => exact hf a rfl

theorem liftPanic_bind {α β : Type} {x : Except Panic α} {f : α → Except Panic β} :
    liftPanic (x >>= f) = (liftPanic x >>= fun a => liftPanic (f a)) := by
  cases x <;> rfl

/-- Constant fields stay as they are. -/
def BusInteraction.Keeps (b : BusInteraction (GExpr p V)) (b' : BusInteraction (GExpr p W)) : Prop :=
  List.Forall₂ (fun e e' => ∀ k, e = const k → e' = const k) b.fields b'.fields

theorem BusInteraction.Keeps.matches {b : BusInteraction (GExpr p V)} {b' : BusInteraction (GExpr p W)}
    (h : b.Keeps b') {r : BusInteraction (RangeConstraint p)} (hr : b'.Matches r) : b.Matches r := by
  unfold BusInteraction.Keeps at h
  unfold BusInteraction.Matches at hr ⊢
  generalize b.fields = l at h
  generalize b'.fields = l' at h hr
  generalize r.fields = lr at hr
  induction h generalizing lr with
  | nil => cases hr; exact .nil
  | cons h1 _ ih =>
    cases hr with
    | cons k1 k2 => exact .cons (fun k hk => k1 k (h1 k hk)) (ih _ k2)

theorem BusInteraction.keeps_map {b : BusInteraction (GExpr p V)} {f : GExpr p V → GExpr p W}
    (hf : ∀ k, f (const k) = const k) : b.Keeps (b.map f) := by
  have key : ∀ l : List (GExpr p V),
      List.Forall₂ (fun (e : GExpr p V) (e' : GExpr p W) => ∀ k, e = const k → e' = const k) l (l.map f) := by
    intro l
    induction l with
    | nil => exact .nil
    | cons e t ih => exact .cons (by rintro k rfl; exact hf k) ih
  exact key b.fields

/-- The handlers agree on everything that may be computed for the bus interaction. -/
def Handler.AgreeOn (h h' : Handler p) (b : BusInteraction (GExpr p V)) : Prop :=
  ∀ r, b.Matches r → h r = h' r

/-- A handler that returns its input instead of a panic. -/
def Handler.totalize (h : Handler p) : Handler p := fun r =>
  match h r with
  | .ok x => .ok x
  | .error _ => .ok r

theorem Handler.Accepts.agree {h : Handler p} {b : BusInteraction (GExpr p V)} (ha : h.Accepts b) :
    h.AgreeOn h.totalize b := by
  intro r hr
  obtain ⟨r', h'⟩ := ha r hr
  simp only [Handler.totalize, h']

theorem Handler.totalize_total (h : Handler p) : h.totalize.Total := by
  intro r
  unfold Handler.totalize
  cases h r <;> exact ⟨_, rfl⟩

theorem Handler.totalize_sound {h : Handler p} {bus : Bus p} (hs : h.Sound bus) :
    h.totalize.Sound bus := by
  intro r r' hr
  unfold Handler.totalize at hr
  cases h1 : h r with
  | ok x => rw [h1] at hr; cases hr; exact hs r _ h1
  | error e => rw [h1] at hr; cases hr; exact ⟨rfl, fun _ _ h => h⟩

theorem Handler.Accepts.keeps {h : Handler p} {b : BusInteraction (GExpr p V)}
    {b' : BusInteraction (GExpr p W)} (ha : h.Accepts b) (hk : b.Keeps b') : h.Accepts b' :=
  fun r hr => ha r (hk.matches hr)

theorem Handler.AgreeOn.keeps {h h' : Handler p} {b : BusInteraction (GExpr p V)}
    {b' : BusInteraction (GExpr p W)} (ha : h.AgreeOn h' b) (hk : b.Keeps b') : h.AgreeOn h' b' :=
  fun r hr => ha r (hk.matches hr)

section
variable [LinearOrder V] [Fact p.Prime]

theorem rangeConstraint_const (rc : V → RangeConstraint p) (k : ZMod p) :
    rangeConstraint rc (const k) = RangeConstraint.fromValue k := by
  simp [const, rangeConstraint, rangeConstraintQ]

theorem matches_toRange (rc : V → RangeConstraint p) (b : BusInteraction (GExpr p V)) :
    b.Matches (toRangeConstraints rc b) := by
  have key : ∀ l : List (GExpr p V), List.Forall₂ (fun e x => ∀ k, e = const k →
      x = RangeConstraint.fromValue k) l (l.map (rangeConstraint rc)) := by
    intro l
    induction l with
    | nil => exact .nil
    | cons e t ih => exact .cons (by rintro k rfl; exact rangeConstraint_const rc k) ih
  exact key b.fields

variable {h h' : Handler p}

theorem handleChecked_agree {b : BusInteraction (GExpr p V)} (ha : h.AgreeOn h' b)
    {r : BusInteraction (RangeConstraint p)} (hr : b.Matches r) : handleChecked h r = handleChecked h' r := by
  unfold handleChecked
  rw [ha r hr]

theorem solveBus_agree {b : BusInteraction (GExpr p V)} (ha : h.AgreeOn h' b) (rc : V → RangeConstraint p) :
    solveBus rc h b = solveBus rc h' b := by
  unfold solveBus
  rw [handleChecked_agree ha (matches_toRange rc b)]

theorem substAssignment_const (l : List (V × ZMod p)) (a : ZMod p) :
    substAssignment l (const a) = const a := by
  unfold substAssignment
  induction l with
  | nil => rfl
  | cons x t ih => rw [List.foldl_cons, substKnown_const]; exact ih

theorem solveUnder_agree {rc : V → RangeConstraint p} {a : List (V × ZMod p)} {c : ConstraintRef p V}
    (hc : ∀ b, c = .bus b → h.AgreeOn h' b) : solveUnder rc h a c = solveUnder rc h' a c := by
  cases c with
  | alg e => rfl
  | bus b =>
    simp only [solveUnder]
    rw [solveBus_agree ((hc b rfl).keeps (b' := b.map (substAssignment a))
      (BusInteraction.keeps_map (substAssignment_const a)))]

theorem solveAllUnder_agree {rc : V → RangeConstraint p} {a : List (V × ZMod p)}
    {l : List (ConstraintRef p V)} (hl : ∀ c ∈ l, ∀ b, c = .bus b → h.AgreeOn h' b) :
    solveAllUnder rc h a l = solveAllUnder rc h' a l := by
  induction l with
  | nil => rfl
  | cons c t ih =>
    rw [solveAllUnder, solveAllUnder, solveUnder_agree (hl c List.mem_cons_self),
      ih fun c hc => hl c (List.mem_cons_of_mem _ hc)]

/-- All bus interactions of the system have the property. -/
def ConstraintSystem.BusAll (s : ConstraintSystem p V) (B : BusInteraction (GExpr p V) → Prop) : Prop :=
  ∀ b ∈ s.bus, B b

variable {B : BusInteraction (GExpr p V) → Prop}

theorem toRef_bus {s : ConstraintSystem p V} (hs : s.BusAll B) {i : Item} {b : BusInteraction (GExpr p V)}
    (hi : i.toRef s = .ok (some (.bus b))) : B b := by
  unfold Item.toRef at hi
  split at hi
  · split at hi <;> cases hi
  · split at hi
    · rename_i heq
      cases hi
      exact hs _ (List.mem_of_getElem? heq)
    · cases hi
  · cases hi

theorem toRefs_bus {s : ConstraintSystem p V} (hs : s.BusAll B) {l : List Item}
    {refs : List (ConstraintRef p V)} (hl : Indexed.toRefs s l = .ok refs) :
    ∀ c ∈ refs, ∀ b, c = .bus b → B b := by
  induction l generalizing refs with
  | nil => cases hl; simp
  | cons i t ih =>
    rw [Indexed.toRefs, Except.bind_ok_iff] at hl
    obtain ⟨o, h1, hl⟩ := hl
    rw [Except.bind_ok_iff] at hl
    obtain ⟨rs, h2, hl⟩ := hl
    cases hl
    rintro c hc b rfl
    rcases List.mem_append.1 hc with hc | hc
    · rw [Option.mem_toList] at hc
      rw [Option.mem_def.1 hc] at h1
      exact toRef_bus hs h1
    · exact ih h2 _ hc b rfl

theorem derive_agree {s : Indexed p V} (hs : s.sys.BusAll (h.AgreeOn h')) {rc : V → RangeConstraint p}
    (a : List (V × ZMod p)) :
    deriveNewRangeConstraints s a rc h = deriveNewRangeConstraints s a rc h' := by
  unfold deriveNewRangeConstraints
  refine bind_congr_ok rfl fun refs hrefs => ?_
  rw [solveAllUnder_agree (toRefs_bus hs hrefs)]

theorem deriveAll_agree {s : Indexed p V} (hs : s.sys.BusAll (h.AgreeOn h')) {rc : V → RangeConstraint p}
    (l : List (List (V × ZMod p))) : deriveAll s rc h l = deriveAll s rc h' l := by
  induction l with
  | nil => rfl
  | cons a t ih => rw [deriveAll, deriveAll, derive_agree hs, ih]

theorem exhaustiveSearchOn_agree {s : Indexed p V} (hs : s.sys.BusAll (h.AgreeOn h'))
    {rc : V → RangeConstraint p} (vs : List V) :
    exhaustiveSearchOn s vs rc h = exhaustiveSearchOn s vs rc h' := by
  unfold exhaustiveSearchOn
  refine bind_congr_ok rfl fun as _ => ?_
  rw [deriveAll_agree hs]

/-! ### The bus interactions of the queue -/

/-- A property that is kept if constants stay constants. -/
def BusClosed (B : BusInteraction (GExpr p V) → Prop) : Prop :=
  ∀ b b' : BusInteraction (GExpr p V), b.Keeps b' → B b → B b'

theorem agreeOn_closed : BusClosed (h.AgreeOn h' (V := V)) := fun _ _ hk ha => ha.keeps hk

theorem busAll_mapItem (hB : BusClosed B) {f : GExpr p V → GExpr p V} (hf : ∀ k, f (const k) = const k)
    {s : ConstraintSystem p V} (hs : s.BusAll B) (i : Item) : (mapItem f s i).BusAll B := by
  cases i with
  | alg i => exact hs
  | derived i => exact hs
  | bus i =>
    intro b hb
    simp only [mapItem, modifyAt] at hb
    obtain ⟨j, hj, rfl⟩ := List.getElem_of_mem hb
    rw [List.getElem_modify]
    split
    · exact hB _ _ (BusInteraction.keeps_map hf) (hs _ (List.getElem_mem _))
    · exact hs _ (List.getElem_mem _)

theorem busAll_subst (hB : BusClosed B) {s : Indexed p V} (hs : s.sys.BusAll B) (x : V) (r : GExpr p V) :
    (s.subst x r).sys.BusAll B := by
  simp only [Indexed.subst]
  generalize s.occ x = l
  generalize s.sys = t at hs
  induction l generalizing t with
  | nil => exact hs
  | cons i l ih => rw [List.foldl_cons]; exact ih _ (busAll_mapItem hB (subst_const x r) hs i)

theorem variableUpdated_ix {s s' : Queued p V} {v : V} (h : s.variableUpdated v = .ok s') : s'.ix = s.ix := by
  unfold Queued.variableUpdated at h
  rw [Except.bind_ok_iff] at h
  obtain ⟨q, -, h⟩ := h
  cases h
  rfl

theorem retainFrom_subset {α : Type} {f : ℕ → α → Bool} {n : ℕ} {l : List α} :
    ∀ x ∈ Indexed.retainFrom f n l, x ∈ l := by
  induction l generalizing n with
  | nil => intro x hx; cases hx
  | cons a t ih =>
    intro x hx
    rw [Indexed.retainFrom] at hx
    split at hx
    · rcases List.mem_cons.1 hx with rfl | hx
      · exact List.mem_cons_self
      · exact List.mem_cons_of_mem _ (ih x hx)
    · exact List.mem_cons_of_mem _ (ih x hx)

theorem resetQueue_ix {s s' : Queued p V} (h : s.resetQueue = .ok s') : s'.ix = s.ix := by
  unfold Queued.resetQueue at h
  split at h
  · cases h; rfl
  · rw [Except.bind_ok_iff] at h
    obtain ⟨q, -, h⟩ := h
    cases h
    rfl

theorem popFront_ix {s s' : Queued p V} {o : Option (ConstraintRef p V)} (h : s.popFront = .ok (o, s')) :
    s'.ix = s.ix ∧ ∀ c, o = some c → ∃ i : Item, i.toRef s.ix.sys = .ok (some c) := by
  unfold Queued.popFront at h
  rw [Except.bind_ok_iff] at h
  obtain ⟨r, -, h⟩ := h
  split at h
  · cases h
    exact ⟨rfl, by simp⟩
  · rw [Except.bind_ok_iff] at h
    rename_i x _
    obtain ⟨c, h1, h⟩ := h
    split at h
    · cases h
    · cases h
      exact ⟨rfl, fun c hc => ⟨x, by cases hc; exact h1⟩⟩

end

end Verif
