import Verif.Spec.Saved
import Verif.Proofs.Expression

/-!
# Saved expressions and machines: proofs
-/

namespace Verif

/-! ## Numerals -/

theorem digitOf_digitChar {radix d : ℕ} (hd : d < radix) (hd' : d < 16) :
    digitOf radix d.digitChar = some d := by
  have hcases : d = 0 ∨ d = 1 ∨ d = 2 ∨ d = 3 ∨ d = 4 ∨ d = 5 ∨ d = 6 ∨ d = 7 ∨ d = 8 ∨ d = 9 ∨ d = 10 ∨ d = 11 ∨
      d = 12 ∨ d = 13 ∨ d = 14 ∨ d = 15 := by omega
  rcases hcases with rfl | rfl | rfl | rfl | rfl | rfl | rfl | rfl | rfl | rfl | rfl | rfl | rfl | rfl | rfl | rfl <;>
    simp [digitOf, Nat.digitChar, hd]

theorem digitsValue_append (radix : ℕ) (a b : List Char) (acc : ℕ) :
    digitsValue radix (a ++ b) acc = (digitsValue radix a acc).bind fun x => digitsValue radix b x := by
  induction a generalizing acc with
  | nil => rfl
  | cons c t ih =>
    simp only [List.cons_append, digitsValue]
    cases digitOf radix c with
    | none => rfl
    | some d => exact ih _

theorem digitsValue_toDigits {radix : ℕ} (hr : 2 ≤ radix) (hr' : radix ≤ 16) (n : ℕ) :
    digitsValue radix (Nat.toDigits radix n) 0 = some n := by
  induction n using Nat.strong_induction_on with
  | _ n ih =>
    by_cases h : n < radix
    · rw [Nat.toDigits_of_lt_base h]
      simp [digitsValue, digitOf_digitChar h (by omega)]
    · have h : radix ≤ n := by omega
      rw [Nat.toDigits_of_base_le (by omega) h, digitsValue_append,
        ih _ (Nat.div_lt_self (by omega) (by omega))]
      have hm : n % radix < radix := Nat.mod_lt _ (by omega)
      simp only [Option.bind_some, digitsValue, digitOf_digitChar hm (by omega)]
      congr 1
      rw [Nat.mul_comm]
      exact Nat.div_add_mod n radix

theorem digitOf_of_mem {radix : ℕ} (hr : 2 ≤ radix) (hr' : radix ≤ 16) (n : ℕ) {c : Char}
    (hc : c ∈ Nat.toDigits radix n) : ∃ d, digitOf radix c = some d := by
  induction n using Nat.strong_induction_on with
  | _ n ih =>
    by_cases h : n < radix
    · rw [Nat.toDigits_of_lt_base h, List.mem_singleton] at hc
      exact ⟨n, by rw [hc, digitOf_digitChar h (by omega)]⟩
    · have h : radix ≤ n := by omega
      rw [Nat.toDigits_of_base_le (by omega) h, List.mem_append, List.mem_singleton] at hc
      rcases hc with hc | hc
      · exact ih _ (Nat.div_lt_self (by omega) (by omega)) hc
      · have hm : n % radix < radix := Nat.mod_lt _ (by omega)
        exact ⟨n % radix, by rw [hc, digitOf_digitChar hm (by omega)]⟩

theorem fromStrRadix_toDigits {limit radix n : ℕ} (hr : 2 ≤ radix) (hr' : radix ≤ 16) (hn : n < limit) :
    fromStrRadix limit radix (Nat.toDigits radix n) = some n := by
  have hplus : '+' ∉ Nat.toDigits radix n := by
    intro h
    obtain ⟨d, hd⟩ := digitOf_of_mem hr hr' n h
    simp [digitOf] at hd
  have hne := Nat.toDigits_ne_nil (n := n) (b := radix)
  have hv := digitsValue_toDigits hr hr' n
  have hs : stripPlus (Nat.toDigits radix n) = Nat.toDigits radix n := by
    unfold stripPlus
    split
    · rename_i heq
      rw [heq] at hplus
      simp at hplus
    · rfl
  unfold fromStrRadix
  rw [hs, if_neg hne, hv]
  exact if_pos hn

/-! ## References -/

theorem splitLast_none {c : Char} {s : List Char} (h : c ∉ s) : splitLast c s = none := by
  induction s with
  | nil => rfl
  | cons x t ih =>
    simp only [List.mem_cons, not_or] at h
    simp [splitLast, ih h.2, Ne.symm h.1]

theorem splitLast_append {c : Char} (a : List Char) {b : List Char} (h : c ∉ b) :
    splitLast c (a ++ c :: b) = some (a, b) := by
  induction a with
  | nil => simp [splitLast, splitLast_none h]
  | cons x t ih => simp [splitLast, ih]

theorem readRef_saveRef {r : SavedRef} (h : r.id < 2 ^ 64) : readRef (saveRef r) = .ok r := by
  have hat : '@' ∉ Nat.toDigits 10 r.id := by
    intro h
    obtain ⟨d, hd⟩ := digitOf_of_mem (by omega) (by omega) r.id h
    simp [digitOf] at hd
  simp only [saveRef, readRef, splitLast_append _ hat]
  rw [fromStrRadix_toDigits (by omega) (by omega) h]

/-! ## Expressions -/

section
variable {T R : Type} {num : T → Json} {ref : R → Json} {readNum : Json → Except SavedError T}
  {readRf : Json → Except SavedError R} {P : R → Prop}

/-- What is needed of the numbers and references. -/
structure LeavesSaved (num : T → Json) (ref : R → Json) (readNum : Json → Except SavedError T)
    (readRf : Json → Except SavedError R) (P : R → Prop) : Prop where
  num : ∀ n, ∃ m, num n = .num m ∧ readNum (.num m) = .ok n
  ref : ∀ r, P r → ∃ s, ref r = .str s ∧ readRf (.str s) = .ok r

theorem readExpr_saveExpr (hl : LeavesSaved num ref readNum readRf P) (e : AlgExpr T R) (h : e.AllRefs P) :
    readExpr readNum readRf (saveExpr num ref e) = .ok e := by
  induction e with
  | reference r =>
    obtain ⟨s, h1, h2⟩ := hl.ref r (h r (by simp [AlgExpr.refs]))
    simp [saveExpr, h1, readExpr, h2, Except.map]
  | number n =>
    obtain ⟨m, h1, h2⟩ := hl.num n
    simp [saveExpr, h1, readExpr, h2, Except.map]
  | binary l op r ihl ihr =>
    have h1 := ihl fun x hx => h x (by simp [AlgExpr.refs, hx])
    have h2 := ihr fun x hx => h x (by simp [AlgExpr.refs, hx])
    have h3 : readOp (.str (opName op)) = .ok op := by cases op <;> simp [readOp, opName]
    simp [saveExpr, readExpr, h1, h2, h3, bind, Except.bind, pure, Except.pure]
  | minus e ih =>
    have h1 := ih fun x hx => h x (by simpa [AlgExpr.refs] using hx)
    simp [saveExpr, readExpr, readMinus, h1, bind, Except.bind, pure, Except.pure]

theorem mapM_save {α β : Type} {save : α → Json} {read : Json → Except SavedError β} {f : α → β} {l : List α}
    (h : ∀ x ∈ l, read (save x) = .ok (f x)) : (l.map save).mapM read = .ok (l.map f) := by
  induction l with
  | nil => rfl
  | cons a t ih =>
    rw [List.map_cons, List.mapM_cons, h a (by simp), ih fun x hx => h x (by simp [hx])]
    rfl

theorem readBus_saveBus (hl : LeavesSaved num ref readNum readRf P) {b : SymBus T R}
    (h : b.id < 2 ^ 64 ∧ b.mult.AllRefs P ∧ ∀ e ∈ b.args, e.AllRefs P) :
    readBus readNum readRf (saveBus num ref b) = .ok b := by
  have h1 := readExpr_saveExpr hl b.mult h.2.1
  have h2 := mapM_save (f := id) fun e he => readExpr_saveExpr hl e (h.2.2 e he)
  have h0 : readU64 (.num b.id) = .ok b.id := if_pos h.1
  simp [saveBus, readBus, readField, h0, readList, h1, h2, bind, Except.bind, pure, Except.pure, List.filter,
    -List.mapM_map]

theorem readMethod_saveMethod (hl : LeavesSaved num ref readNum readRf P) {m : SymMethod T R} (h : m.AllRefs P) :
    readMethod readNum readRf (saveMethod num ref m) = .ok m := by
  cases m with
  | constant c =>
    obtain ⟨n, h1, h2⟩ := hl.num c
    simp [saveMethod, readMethod, h1, h2, Except.map]
  | quotientOrZero e1 e2 =>
    simp [saveMethod, readMethod, readExpr_saveExpr hl e1 h.1, readExpr_saveExpr hl e2 h.2, bind, Except.bind, pure,
      Except.pure]

theorem readDerived_saveDerived (hl : LeavesSaved num ref readNum readRf P) {d : R × SymMethod T R}
    (h : P d.1 ∧ d.2.AllRefs P) : readDerived readNum readRf (saveDerived num ref d) = .ok d := by
  obtain ⟨s, h1, h2⟩ := hl.ref d.1 h.1
  simp [saveDerived, readDerived, h1, h2, readMethod_saveMethod hl h.2, bind, Except.bind, pure, Except.pure]

theorem readMachine_saveMachine (hl : LeavesSaved num ref readNum readRf P) {m : SymMachine T R} (h : m.Storable P) :
    readMachine readNum readRf (saveMachine num ref m) = .ok m := by
  have h1 := mapM_save (f := id) fun e he => readExpr_saveExpr hl e (h.constraints e he)
  have h2 := mapM_save (save := saveBus num ref) (f := id) fun b hb => readBus_saveBus hl (h.bus b hb)
  have h3 := mapM_save (save := saveDerived num ref) (f := id) fun d hd => readDerived_saveDerived hl (h.derived d hd)
  simp [saveMachine, readMachine, readField, readList, h1, h2, h3, bind, Except.bind, pure, Except.pure, List.filter,
    -List.mapM_map]

end

/-! ## Grouped expressions -/

section
variable {p : ℕ} {V : Type}

/-- The sum of the items, given in reverse order without the last one, and the last one. -/
def sumExpr {T R : Type} : List (AlgExpr T R) → AlgExpr T R → AlgExpr T R
  | [], last => last
  | x :: t, last => .binary (sumExpr t x) .add last

/-- The sum of the items. -/
def itemsExpr {T R : Type} (l : List (AlgExpr T R)) (zero : AlgExpr T R) : AlgExpr T R :=
  match l.reverse with
  | [] => zero
  | last :: before => sumExpr before last

/-- A linear term. -/
def linearExpr (x : V × ZMod p) : AlgExpr (ZMod p) V :=
  if x.2 = 1 then .reference x.1 else .binary (.number x.2) .mul (.reference x.1)

mutual
/-- The expression that is saved for a grouped expression. -/
def savedAs : GExpr p V → AlgExpr (ZMod p) V
  | .mk q l c => itemsExpr (savedAsQ q ++ l.map linearExpr ++ (if c = 0 then [] else [.number c])) (.number 0)
/-- The quadratic terms. -/
def savedAsQ : List (GExpr p V × GExpr p V) → List (AlgExpr (ZMod p) V)
  | [] => []
  | (a, b) :: t => .binary (savedAs a) .mul (savedAs b) :: savedAsQ t
end

section
variable (num : ZMod p → Json) (ref : V → Json)

theorem saveSum_map (l : List (AlgExpr (ZMod p) V)) (e : AlgExpr (ZMod p) V) :
    saveSum (l.map (saveExpr num ref)) (saveExpr num ref e) = saveExpr num ref (sumExpr l e) := by
  induction l generalizing e with
  | nil => rfl
  | cons x t ih => simp [saveSum, sumExpr, saveExpr, opName, ih]

theorem saveItems_map (l : List (AlgExpr (ZMod p) V)) (e : AlgExpr (ZMod p) V) :
    saveItems (l.map (saveExpr num ref)) (saveExpr num ref e) = saveExpr num ref (itemsExpr l e) := by
  unfold saveItems itemsExpr
  rw [← List.map_reverse]
  cases l.reverse with
  | nil => rfl
  | cons x t => exact saveSum_map num ref t x

mutual
theorem saveGrouped_eq : ∀ g : GExpr p V, saveGrouped num ref g = saveExpr num ref (savedAs g)
  | .mk q l c => by
    rw [saveGrouped, savedAs, ← saveItems_map]
    congr 1
    rw [List.map_append, List.map_append, saveQuadratic_eq q, List.map_map]
    congr 1
    · congr 1
      refine List.map_congr_left fun x _ => ?_
      simp only [saveLinear, linearExpr, Function.comp_apply]
      split <;> simp [saveExpr, opName]
    · split <;> simp [saveExpr]
theorem saveQuadratic_eq : ∀ q : List (GExpr p V × GExpr p V),
    saveQuadratic num ref q = (savedAsQ q).map (saveExpr num ref)
  | [] => by simp [saveQuadratic, savedAsQ]
  | (a, b) :: t => by
    rw [saveQuadratic, savedAsQ, List.map_cons, saveQuadratic_eq t, saveExpr, saveGrouped_eq a, saveGrouped_eq b]
    rfl
end
end

section
variable (σ : V → ZMod p)

theorem value_sumExpr (l : List (AlgExpr (ZMod p) V)) (e : AlgExpr (ZMod p) V) :
    (sumExpr l e).value σ = (l.map (AlgExpr.value σ)).sum + e.value σ := by
  induction l generalizing e with
  | nil => simp [sumExpr]
  | cons x t ih => simp [sumExpr, AlgExpr.value, ih]; ring

theorem value_itemsExpr (l : List (AlgExpr (ZMod p) V)) (e : AlgExpr (ZMod p) V) (he : e.value σ = 0) :
    (itemsExpr l e).value σ = (l.map (AlgExpr.value σ)).sum := by
  unfold itemsExpr
  rw [show (l.map (AlgExpr.value σ)).sum = ((l.reverse).map (AlgExpr.value σ)).sum by
    rw [List.map_reverse, List.sum_reverse]]
  cases l.reverse with
  | nil => simpa using he
  | cons x t => simp [value_sumExpr, add_comm]

mutual
theorem value_savedAs : ∀ g : GExpr p V, (savedAs g).value σ = g.eval σ
  | .mk q l c => by
    rw [savedAs, value_itemsExpr _ _ _ (by simp [AlgExpr.value]), GExpr.eval, GExpr.evalIn, List.map_append,
      List.map_append, List.sum_append, List.sum_append, value_savedAsQ q, List.map_map]
    congr 1
    · congr 2
      refine List.map_congr_left fun x _ => ?_
      simp only [linearExpr, Function.comp_apply]
      split <;> simp_all [AlgExpr.value]
    · split <;> simp_all [AlgExpr.value]
theorem value_savedAsQ : ∀ q : List (GExpr p V × GExpr p V),
    ((savedAsQ q).map (AlgExpr.value σ)).sum = GExpr.evalInQ (RingHom.id _) σ q
  | [] => by simp [savedAsQ, GExpr.evalInQ]
  | (a, b) :: t => by
    have h1 := value_savedAs a
    have h2 := value_savedAs b
    simp only [GExpr.eval] at h1 h2
    rw [savedAsQ, List.map_cons, List.sum_cons, value_savedAsQ t, GExpr.evalInQ, AlgExpr.value, h1, h2]
end
end

theorem mem_refs_sumExpr {T R : Type} {r : R} {l : List (AlgExpr T R)} {e : AlgExpr T R}
    (h : r ∈ (sumExpr l e).refs) : ∃ x ∈ e :: l, r ∈ x.refs := by
  induction l generalizing e with
  | nil => exact ⟨e, by simp, h⟩
  | cons x t ih =>
    simp only [sumExpr, AlgExpr.refs, List.mem_append] at h
    rcases h with h | h
    · obtain ⟨y, hy, hr⟩ := ih h
      exact ⟨y, List.mem_cons_of_mem _ hy, hr⟩
    · exact ⟨e, by simp, h⟩

theorem mem_refs_itemsExpr {T R : Type} {r : R} {l : List (AlgExpr T R)} {e : AlgExpr T R} (he : e.refs = [])
    (h : r ∈ (itemsExpr l e).refs) : ∃ x ∈ l, r ∈ x.refs := by
  unfold itemsExpr at h
  split at h
  · rw [he] at h
    cases h
  · rename_i last before heq
    obtain ⟨x, hx, hr⟩ := mem_refs_sumExpr h
    rw [← heq, List.mem_reverse] at hx
    exact ⟨x, hx, hr⟩

mutual
theorem occurs_of_refs_savedAs : ∀ (g : GExpr p V) {v : V}, v ∈ (savedAs g).refs → GExpr.Occurs v g
  | .mk q l c, v, h => by
    rw [savedAs] at h
    obtain ⟨x, hx, hr⟩ := mem_refs_itemsExpr rfl h
    rw [List.mem_append, List.mem_append] at hx
    rcases hx with (hx | hx) | hx
    · obtain ⟨a, b, hab, ho⟩ := occurs_of_refs_savedAsQ q hx hr
      rcases ho with ho | ho
      · exact .left _ _ _ a b hab ho
      · exact .right _ _ _ a b hab ho
    · obtain ⟨y, hy, rfl⟩ := List.mem_map.1 hx
      have : v = y.1 := by
        unfold linearExpr at hr
        split at hr <;> simpa [AlgExpr.refs] using hr
      exact .linear _ _ _ y.2 (by rw [this]; exact hy)
    · split at hx
      · cases hx
      · rw [List.mem_singleton] at hx
        rw [hx] at hr
        simp [AlgExpr.refs] at hr
theorem occurs_of_refs_savedAsQ : ∀ (q : List (GExpr p V × GExpr p V)) {x : AlgExpr (ZMod p) V} {v : V},
    x ∈ savedAsQ q → v ∈ x.refs → ∃ a b, (a, b) ∈ q ∧ (GExpr.Occurs v a ∨ GExpr.Occurs v b)
  | [], _, _, hx, _ => by simp [savedAsQ] at hx
  | (a, b) :: t, x, v, hx, hr => by
    rw [savedAsQ, List.mem_cons] at hx
    rcases hx with rfl | hx
    · simp only [AlgExpr.refs, List.mem_append] at hr
      rcases hr with hr | hr
      · exact ⟨a, b, by simp, .inl (occurs_of_refs_savedAs a hr)⟩
      · exact ⟨a, b, by simp, .inr (occurs_of_refs_savedAs b hr)⟩
    · obtain ⟨a', b', hab, ho⟩ := occurs_of_refs_savedAsQ t hx hr
      exact ⟨a', b', by simp [hab], ho⟩
end

/-! ## Constraint systems -/

/-- The method that is saved. -/
def savedMethod : ComputationMethod p (GExpr p V) → SymMethod (ZMod p) V
  | .constant c => .constant c
  | .quotientOrZero e1 e2 => .quotientOrZero (savedAs e1) (savedAs e2)

/-- The machine that is saved. -/
def savedMachine (s : ConstraintSystem p V) : SymMachine (ZMod p) V :=
  ⟨s.algebraic.map savedAs, s.bus.map fun b => ⟨b.busId.constant.val, savedAs b.multiplicity, b.payload.map savedAs⟩,
    s.derived.map fun d => (d.column, savedMethod d.method)⟩

theorem saveSystem_eq (num : ZMod p → Json) (ref : V → Json) (hnum : ∀ n, num n = .num n.val) {P : V → Prop}
    {s : ConstraintSystem p V} (h : s.Storable P) : saveSystem num ref s = saveMachine num ref (savedMachine s) := by
  have h1 : s.algebraic.map (saveGrouped num ref) = (s.algebraic.map savedAs).map (saveExpr num ref) := by
    rw [List.map_map]
    exact List.map_congr_left fun g _ => saveGrouped_eq num ref g
  have h2 : s.bus.map (saveGroupedBus num ref) = ((savedMachine s).bus).map (saveBus num ref) := by
    simp only [savedMachine, List.map_map]
    refine List.map_congr_left fun b hb => ?_
    obtain ⟨c, hc⟩ := h.ids b hb
    have : saveGrouped num ref b.busId = .num b.busId.constant.val := by
      rw [hc]
      by_cases h0 : c = 0
      · simp [saveGrouped, saveQuadratic, saveItems, h0, hnum, GExpr.constant]
      · simp [saveGrouped, saveQuadratic, saveItems, h0, hnum, GExpr.constant, saveSum]
    have hg : saveGrouped num ref = saveExpr num ref ∘ (savedAs : GExpr p V → _) := funext (saveGrouped_eq num ref)
    simp only [saveGroupedBus, saveBus, Function.comp_apply, List.map_map, this, hg]
  have h3 : s.derived.map (saveGroupedDerived num ref) = ((savedMachine s).derived).map (saveDerived num ref) := by
    simp only [savedMachine, List.map_map]
    refine List.map_congr_left fun d _ => ?_
    simp only [saveGroupedDerived, saveDerived, Function.comp_apply]
    cases d.method with
    | constant c => rfl
    | quotientOrZero e1 e2 => simp [saveGroupedMethod, saveMethod, savedMethod, saveGrouped_eq]
  rw [saveSystem, saveMachine, h1, h2, h3]
  rfl

theorem savedMachine_storable [NeZero p] (hp : p ≤ 2 ^ 64) {P : V → Prop} {s : ConstraintSystem p V}
    (h : s.Storable P) : (savedMachine s).Storable P := by
  constructor
  · intro e he
    obtain ⟨g, hg, rfl⟩ := List.mem_map.1 he
    exact fun r hr => h.constraints g hg r (occurs_of_refs_savedAs g hr)
  · intro b hb
    obtain ⟨g, hg, rfl⟩ := List.mem_map.1 hb
    refine ⟨lt_of_lt_of_le (ZMod.val_lt _) hp, fun r hr => h.bus g hg _ (by simp) r (occurs_of_refs_savedAs _ hr), ?_⟩
    intro e he
    obtain ⟨x, hx, rfl⟩ := List.mem_map.1 he
    exact fun r hr => h.bus g hg x (by simp [hx]) r (occurs_of_refs_savedAs _ hr)
  · intro d hd
    obtain ⟨g, hg, rfl⟩ := List.mem_map.1 hd
    refine ⟨h.columns g hg, ?_⟩
    cases hm : g.method with
    | constant c => exact trivial
    | quotientOrZero e1 e2 =>
      exact ⟨fun r hr => h.derived g hg e1 e2 hm r (.inl (occurs_of_refs_savedAs _ hr)),
        fun r hr => h.derived g hg e1 e2 hm r (.inr (occurs_of_refs_savedAs _ hr))⟩

theorem savedMachine_agrees [NeZero p] (σ : V → ZMod p) {P : V → Prop} {s : ConstraintSystem p V}
    (h : s.Storable P) : MachineAgrees σ (savedMachine s) s := by
  have hv : (AlgExpr.value σ ∘ savedAs : GExpr p V → ZMod p) = GExpr.eval σ := funext fun g => value_savedAs σ g
  constructor
  · simp only [savedMachine, List.map_map, hv]
  · simp only [savedMachine, List.map_map]
    refine List.map_congr_left fun b hb => ?_
    obtain ⟨c, hc⟩ := h.ids b hb
    simp [hc, GExpr.constant, GExpr.eval, GExpr.evalIn, GExpr.evalInQ]
  · simp only [savedMachine, List.map_map]
    exact List.map_congr_left fun b _ => value_savedAs σ _
  · simp only [savedMachine, List.map_map]
    refine List.map_congr_left fun b _ => ?_
    simp only [Function.comp_apply, List.map_map, hv]
  · simp [savedMachine]
  · simp only [savedMachine, List.forall₂_map_left_iff]
    refine List.forall₂_same.2 fun d _ => ?_
    cases d.method with
    | constant c => exact .constant c
    | quotientOrZero e1 e2 => exact .quotient _ _ _ _ (value_savedAs σ _) (value_savedAs σ _)

end

end Verif
