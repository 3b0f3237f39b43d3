import Verif.Proofs.PrintedMachine
import Mathlib.Tactic.NormNum.Prime

/-!
# C86: printed expressions and machines
-/

namespace Verif

/-- C86: by the rules of arithmetic a text is read in at most one way. -/
theorem C86_unambiguous {s : List Char} {t t' : TextTree} (h : Reads .sum s t) (h' : Reads .sum s t') : t = t' :=
  reads_unique h h'

/-- C86: a printed expression is read as the expression. -/
theorem C86_expression {p : ℕ} [NeZero p] {R : Type} (name : R → List Char) (e : AlgExpr (ZMod p) R)
    (h : ∀ r ∈ e.refs, IsName (name r)) : Reads .sum (printExpr printNumber name e) (e.textTree name) :=
  (printExpr_reads name e h).to_sum

/-- C86: however a printed expression is read, it has the value of the expression. -/
theorem C86_value {p : ℕ} [Fact p.Prime] {R : Type} (name : R → List Char) (e : AlgExpr (ZMod p) R)
    (h : ∀ r ∈ e.refs, IsName (name r)) (σ : R → ZMod p) (env : List Char → ZMod p)
    (hv : ∀ r ∈ e.refs, env (name r) = σ r) (t : TextTree) (ht : Reads .sum (printExpr printNumber name e) t) :
    t.value env = some (e.value σ) := by
  have : NeZero p := ⟨(Fact.out : p.Prime).ne_zero⟩
  rw [reads_unique ht (C86_expression name e h), value_textTree e hv]

/-- C86: different expressions are printed differently. -/
theorem C86_distinct {p : ℕ} [NeZero p] {R : Type} {name : R → List Char} {e e' : AlgExpr (ZMod p) R}
    (hn : ∀ r ∈ e.refs, IsName (name r)) (hn' : ∀ r ∈ e'.refs, IsName (name r))
    (h : ∀ r ∈ e.refs, ∀ r' ∈ e'.refs, name r = name r' → r = r')
    (ht : printExpr printNumber name e = printExpr printNumber name e') : e = e' :=
  printExpr_injective hn hn' h ht

/-- C86: a printed symbolic value can be read, and has the value of the symbolic value, if there is one. -/
theorem C86_symbolic {p : ℕ} [Fact p.Prime] {S : Type} (name : S → List Char) (e : SymExpr p S)
    (hn : ∀ s, e.Mentions s → IsName (name s)) (σ : S → ZMod p) (env : List Char → ZMod p)
    (hv : ∀ s, e.Mentions s → env (name s) = σ s) :
    (∃ t, Reads .sum (printSymbolic name e) t) ∧
      ∀ t, Reads .sum (printSymbolic name e) t → t.value env = e.value σ := by
  obtain ⟨t, ht, htv⟩ := printSymbolic_reads e hn hv
  refine ⟨⟨t, ht.to_sum⟩, fun t' ht' => ?_⟩
  rw [reads_unique ht' ht.to_sum, htv]

/-- C86: a printed grouped expression can be read, and has the value of the expression. -/
theorem C86_grouped {p : ℕ} [Fact p.Prime] {V : Type} (name : V → List Char) (g : GExpr p V) (σ : V → ZMod p)
    (env : List Char → ZMod p) (h : ∀ v, GExpr.Occurs v g → IsName (name v) ∧ env (name v) = σ v) :
    (∃ t, Reads .sum (printGrouped name g) t) ∧
      ∀ t, Reads .sum (printGrouped name g) t → t.value env = some (g.eval σ) := by
  suffices h : ∃ t, Reads .sum (printGrouped name g) t ∧ t.value env = some (g.eval σ) by
    obtain ⟨t, ht, htv⟩ := h
    exact ⟨⟨t, ht⟩, fun t' ht' => by rw [reads_unique ht' ht, htv]⟩
  obtain ⟨t, w, h1, h2, h3⟩ := signedText_reads (name := name) (σ := σ) (env := env) g h
  unfold printGrouped
  by_cases hs : (signedText name g).1 = true
  · rw [if_pos hs] at h3 ⊢
    exact ⟨.neg t, (Reads.neg _ _ (.atom _ _ (.parentheses _ _ h1))).to_sum, by simp [TextTree.value, h2, h3]⟩
  · rw [if_neg hs] at h3 ⊢
    exact ⟨t, h1, by rw [h2, h3]⟩

/-- C86: two machines with the same printed form have the same constraints and bus interactions in the same order. -/
theorem C86_machine {p : ℕ} [NeZero p] {m m' : SymMachine (ZMod p) SavedRef} (hn : GoodNames (m.refs ++ m'.refs))
    (h : printMachine m = printMachine m') : m.constraints = m'.constraints ∧ m.bus = m'.bus :=
  printMachine_injective hn (fun r hr => by simp [hr]) (fun r hr => by simp [hr]) h

/-- C86: a machine is rendered exactly if each bus with an interaction has a type; otherwise it is a panic. -/
theorem C86_render_total {p : ℕ} [NeZero p] (busType : ℕ → Option (List Char)) (m : SymMachine (ZMod p) SavedRef) :
    (∃ t, renderMachine busType m = .ok t) ↔ ∀ b ∈ m.bus, busType b.id ≠ none :=
  renderMachine_ok

/-- C86: two machines that are rendered in the same way have the same constraints in the same order, and for each bus the
same interactions in the same order. -/
theorem C86_render {p : ℕ} [NeZero p] {busType : ℕ → Option (List Char)}
    (hty : ∀ i ty, busType i = some ty → '\n' ∉ ty) {m m' : SymMachine (ZMod p) SavedRef}
    (hn : GoodNames (m.refs ++ m'.refs)) {t : List Char} (h : renderMachine busType m = .ok t)
    (h' : renderMachine busType m' = .ok t) :
    m.constraints = m'.constraints ∧ ∀ i, (m.bus.filter fun b => b.id = i) = m'.bus.filter fun b => b.id = i :=
  renderMachine_injective hn hty (fun r hr => by simp [hr]) (fun r hr => by simp [hr]) h h'

/-- C86: the text begins with the number of columns and their names in the order of their ids, each column once. -/
theorem C86_columns {p : ℕ} [NeZero p] {busType : ℕ → Option (List Char)}
    (hty : ∀ i ty, busType i = some ty → '\n' ∉ ty) {m : SymMachine (ZMod p) SavedRef} (hn : GoodNames m.refs) {t : List Char}
    (h : renderMachine busType m = .ok t) :
    ∃ cols : List SavedRef, cols.Pairwise (fun a b => a.id < b.id) ∧ (∀ c ∈ cols, c ∈ m.refs) ∧
      (∀ r ∈ m.refs, ∃ c ∈ cols, c.id = r.id) ∧
      (∃ r, t = "Symbolic machine using ".toList ++ (toString cols.length).toList ++ " unique main columns:".toList ++ r) ∧
      (cols ≠ [] → ∃ r, t = "Symbolic machine using ".toList ++ (toString cols.length).toList ++ " unique main columns:".toList ++
        '\n' :: ("  ".toList ++ joinText "\n  ".toList (cols.map SavedRef.name)) ++ r) := by
  have hs := columnList_spec m
  have hh := renderMachine_head hn (fun r hr => hr) hty h
  refine ⟨columnList m, hs.1, fun c hc => mem_columnList hc, hs.2, ?_, ?_⟩
  · rw [numeral_eq]
    exact hh.1
  · rw [numeral_eq]
    exact hh.2

/-! ## A case that meets the hypotheses -/

/-- Columns of the example. -/
def printedSampleRef (i : ℕ) : SavedRef := ⟨"x_".toList ++ printNat i, i⟩

/-- `-(x_1 + 3) * (x_0 - (x_1 - 6))` over the field with 7 elements. -/
def printedSampleExpr : AlgExpr (ZMod 7) SavedRef :=
  .binary (.minus (.binary (.reference (printedSampleRef 1)) .add (.number 3))) .mul
    (.binary (.reference (printedSampleRef 0)) .sub (.binary (.reference (printedSampleRef 1)) .sub (.number 6)))

/-- A machine with a constraint and interactions of two buses. -/
def printedSampleMachine : SymMachine (ZMod 7) SavedRef :=
  ⟨[printedSampleExpr], [⟨3, .number 1, [.reference (printedSampleRef 1), .number 2]⟩, ⟨1, .reference (printedSampleRef 0), []⟩,
    ⟨3, .number 6, []⟩], []⟩

theorem printedSampleExpr_text :
    printColumns printedSampleExpr = "-(x_1 + 3) * (x_0 - (x_1 - 6))".toList := by decide +kernel

theorem printedSampleMachine_text : printMachine printedSampleMachine =
    "(id=3, mult=1, args=[x_1, 2])\n(id=1, mult=x_0, args=[])\n(id=3, mult=6, args=[])\n-(x_1 + 3) * (x_0 - (x_1 - 6)) = 0\n".toList := by
  decide +kernel

theorem printedSampleMachine_render : renderMachine (fun i => if i = 1 then some "Memory".toList else some "Other".toList)
    printedSampleMachine = .ok ("Symbolic machine using 2 unique main columns:\n  x_0\n  x_1\n\n// Bus 1 (Memory):\nmult=x_0, args=[]\n".toList ++
      "\n// Bus 3 (Other):\nmult=1, args=[x_1, 2]\nmult=6, args=[]\n\n// Algebraic constraints:\n-(x_1 + 3) * (x_0 - (x_1 - 6)) = 0".toList) := by
  decide +kernel

theorem printedSample_goodNames : GoodNames (printedSampleMachine.refs ++ printedSampleMachine.refs) := by
  have h : ∀ r ∈ printedSampleMachine.refs ++ printedSampleMachine.refs, r = printedSampleRef 0 ∨ r = printedSampleRef 1 := by
    decide +kernel
  have hname : ∀ r ∈ [printedSampleRef 0, printedSampleRef 1], IsName r.name := by
    unfold IsName IsSpecial
    decide +kernel
  refine ⟨fun r hr => hname r (by rcases h r hr with rfl | rfl <;> simp), fun r hr r' hr' hrr => ?_⟩
  have : ∀ r ∈ [printedSampleRef 0, printedSampleRef 1], ∀ r' ∈ [printedSampleRef 0, printedSampleRef 1], r.name = r'.name → r = r' := by
    decide +kernel
  exact this r (by rcases h r hr with rfl | rfl <;> simp) r' (by rcases h r' hr' with rfl | rfl <;> simp) hrr

/-- A grouped expression with negative parts, `-x * (y - 1) - 2 * x + 3` over the field with 7 elements. -/
def printedSampleGrouped : GExpr 7 ℕ :=
  .mk [(.mk [] [(0, -1)] 0, .mk [] [(1, 1)] (-1))] [(0, -2)] 3

theorem printedSampleGrouped_text : printGrouped (fun i => (printedSampleRef i).name) printedSampleGrouped =
    "-((x_0) * (x_1 - 1) + 2 * x_0 - 3)".toList := by decide +kernel

/-- `-(1 / s)`, with a division. -/
theorem printedSample_symbolic : printSymbolic (fun _ : ℕ => "s".toList)
    (.unaryNeg (.binary (.concrete 6) .div (.symbol 0 ⟨0, 6, 7⟩) ⟨0, 6, 7⟩) ⟨0, 6, 7⟩ : SymExpr 7 ℕ) = "-(-1 / s)".toList := by
  decide +kernel

end Verif
