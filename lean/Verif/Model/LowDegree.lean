import Verif.Model.RangeOptimizer
import Verif.Model.ExhaustiveSearch

/-!
# Model of the low-degree bus interaction optimizer

`autoprecompiles/src/low_degree_bus_interaction_optimizer.rs`.
-/

namespace Verif

open RangeConstraint GExpr

variable {p : ℕ} {V : Type} [LinearOrder V]

/-- `SymbolicField` (low_degree_bus_interaction_optimizer.rs:318-325). -/
structure SymbolicField (p : ℕ) (V : Type) where
  index : ℕ
  expression : GExpr p V
  range : RangeConstraint p

/-- `SymbolicFunction` (low_degree_bus_interaction_optimizer.rs:328-331). -/
structure SymbolicFunction (p : ℕ) (V : Type) where
  inputs : List (SymbolicField p V)
  output : SymbolicField p V

/-- `LowDegreeReplacement` (low_degree_bus_interaction_optimizer.rs:28-31). -/
structure LowDegreeReplacement (p : ℕ) (V : Type) where
  constraint : GExpr p V
  ranges : RangeConstraints p V

/-- `LowDegreeFunction` (low_degree_bus_interaction_optimizer.rs:311). -/
abbrev LowDegreeFunction (p : ℕ) (V : Type) := List (GExpr p V) → GExpr p V

/-- `inputs[i].clone()`. An index out of range is zero here; the functions are only applied to lists
of the number of inputs they are made for. -/
def inputAt (inputs : List (GExpr p V)) (i : ℕ) : GExpr p V := inputs.getD i zero

/-- `hypotheses` (low_degree_bus_interaction_optimizer.rs:334-373). -/
def lowDegreeHypotheses : ℕ → Except Panic (List (LowDegreeFunction p V))
  | 1 => .ok [
      fun l => inputAt l 0,
      fun l => sub (const 1) (inputAt l 0),
      fun l => sub (const 0xff) (inputAt l 0),
      fun l => sub (const 0xffff) (inputAt l 0)]
  | 2 => .ok [
      fun l => inputAt l 0,
      fun l => add (inputAt l 0) (inputAt l 1),
      fun l => mul (inputAt l 0) (inputAt l 1),
      fun l => sub (add (inputAt l 0) (inputAt l 1)) (mul (inputAt l 0) (inputAt l 1)),
      fun l => sub (add (inputAt l 0) (inputAt l 1))
        (mul (const 2) (mul (inputAt l 0) (inputAt l 1)))]
  | _ => .error .assertion

/-- The number of allowed values, if the range is small
(low_degree_bus_interaction_optimizer.rs:204-212; `size_estimate`: range_constraint.rs:127-129). -/
def smallCount (r : RangeConstraint p) : Option ℕ :=
  if r.width < 2 ^ 16 then r.allowedValues.map List.length else none

/-- `has_few_possible_values` (low_degree_bus_interaction_optimizer.rs:196-216) with
`MAX_DOMAIN_SIZE` (314). The product of at most two factors below `2^16` does not overflow. -/
def hasFewPossibleValues (rs : List (RangeConstraint p)) : Bool :=
  match rs.mapM smallCount with
  | none => false
  | some l => l.prod ≤ 256

/-- The unknown fields (low_degree_bus_interaction_optimizer.rs:150-164). -/
def unknownFields [Fact p.Prime] (solver : Solver p V) (b : BusInteraction (GExpr p V)) :
    List (SymbolicField p V) :=
  (b.payload.zipIdx.filter fun x => x.1.tryToNumber.isNone).map fun x =>
    ⟨x.2, x.1, solver.rangeConstraintForExpression x.1⟩

/-- The permutations of two or three fields, the last one being the output
(low_degree_bus_interaction_optimizer.rs:166-184). -/
def symbolicFunctions : List (SymbolicField p V) → List (SymbolicFunction p V)
  | [a, b] => [⟨[a], b⟩, ⟨[b], a⟩]
  | [a, b, c] => [⟨[a, b], c⟩, ⟨[a, c], b⟩, ⟨[b, a], c⟩, ⟨[b, c], a⟩, ⟨[c, a], b⟩, ⟨[c, b], a⟩]
  | _ => []

/-- `symbolic_function_candidates_with_small_domain`
(low_degree_bus_interaction_optimizer.rs:147-192). -/
def functionCandidates [Fact p.Prime] (solver : Solver p V) (b : BusInteraction (GExpr p V)) :
    List (SymbolicFunction p V) :=
  (symbolicFunctions (unknownFields solver b)).filter fun f =>
    hasFewPossibleValues (f.inputs.map SymbolicField.range)

/-- The allowed values of the inputs (low_degree_bus_interaction_optimizer.rs:273-283). -/
def inputValues : List (SymbolicField p V) → Except Panic (List (List (ℕ × ZMod p)))
  | [] => .ok []
  | x :: t =>
    match x.range.allowedValues with
    | none => .error .assertion
    | some l => do
      let rest ← inputValues t
      pure (l.map (fun v => (x.index, v)) :: rest)

/-- The payload with the inputs set (low_degree_bus_interaction_optimizer.rs:289-292). -/
def setInputs (payload : List (RangeConstraint p)) (assignment : List (ℕ × ZMod p)) :
    List (RangeConstraint p) :=
  assignment.foldl (fun l x => l.set x.1 (fromValue x.2)) payload

/-- One element of `concrete_input_output_pairs` (low_degree_bus_interaction_optimizer.rs:287-304);
`none` is the error. -/
def concreteOutput (h : Handler p) (r : BusInteraction (RangeConstraint p)) (out : ℕ)
    (assignment : List (ℕ × ZMod p)) : Except Panic (Option (ZMod p)) := do
  match ← handleChecked h { r with payload := setInputs r.payload assignment } with
  | .error _ => pure none
  | .ok r' =>
    match r'.payload[out]? with
    | none => .error .assertion
    | some rc => pure rc.tryToSingleValue

/-- `hypotheses.retain` (low_degree_bus_interaction_optimizer.rs:239-242). -/
def retainMatching (inputs : List (GExpr p V)) (output : ZMod p) :
    List (LowDegreeFunction p V) → Except Panic (List (LowDegreeFunction p V))
  | [] => .ok []
  | f :: t =>
    match (f inputs).tryToNumber with
    | none => .error .assertion
    | some v => do
      let rest ← retainMatching inputs output t
      pure (if v = output then f :: rest else rest)

/-- The loop of `find_low_degree_function` (low_degree_bus_interaction_optimizer.rs:231-247); the
remaining hypotheses. -/
def testHypotheses (h : Handler p) (r : BusInteraction (RangeConstraint p)) (out : ℕ) :
    List (List (ℕ × ZMod p)) → List (LowDegreeFunction p V) →
    Except Panic (Option (List (LowDegreeFunction p V)))
  | [], hyps => .ok (some hyps)
  | a :: t, hyps => do
    match ← concreteOutput h r out a with
    | none => pure none
    | some output =>
      let hyps ← retainMatching (a.map fun x => const x.2) output hyps
      if hyps.isEmpty then pure none
      else testHypotheses h r out t hyps

/-- `find_low_degree_function` (low_degree_bus_interaction_optimizer.rs:220-254). -/
def findLowDegreeFunction [Fact p.Prime] (h : Handler p) (solver : Solver p V)
    (b : BusInteraction (GExpr p V)) (f : SymbolicFunction p V) :
    Except Panic (Option (LowDegreeFunction p V)) := do
  let hyps ← lowDegreeHypotheses f.inputs.length
  let values ← inputValues f.inputs
  match ← testHypotheses h (toRangeConstraints solver.get b) f.output.index (cartesian values) hyps with
  | none => pure none
  | some [g] => pure (some g)
  | some _ => .error .assertion

/-- The closure of `find_map` (low_degree_bus_interaction_optimizer.rs:108-141). -/
def tryFunction [Fact p.Prime] (h : Handler p) (bound : DegreeBound) (solver : Solver p V)
    (b : BusInteraction (GExpr p V)) (f : SymbolicFunction p V) :
    Except Panic (Option (LowDegreeReplacement p V)) := do
  match ← findLowDegreeFunction h solver b f with
  | none => pure none
  | some g =>
    let constraint := sub f.output.expression (g (f.inputs.map SymbolicField.expression))
    if constraint.degree ≤ bound.identities then
      pure (some ⟨constraint, f.inputs.map fun x => (x.expression, x.range)⟩)
    else pure none

/-- `find_map` (low_degree_bus_interaction_optimizer.rs:106-141). -/
def firstReplacement [Fact p.Prime] (h : Handler p) (bound : DegreeBound) (solver : Solver p V)
    (b : BusInteraction (GExpr p V)) :
    List (SymbolicFunction p V) → Except Panic (Option (LowDegreeReplacement p V))
  | [] => .ok none
  | f :: t => do
    match ← tryFunction h bound solver b f with
    | some r => pure (some r)
    | none => firstReplacement h bound solver b t

/-- `try_replace_bus_interaction` (low_degree_bus_interaction_optimizer.rs:98-143). -/
def tryReplaceBus [Fact p.Prime] (h : Handler p) (isStateful : ZMod p → Bool) (bound : DegreeBound)
    (solver : Solver p V) (b : BusInteraction (GExpr p V)) :
    Except Panic (Option (LowDegreeReplacement p V)) :=
  match b.busId.tryToNumber with
  | none => .ok none
  | some id =>
    if isStateful id then .ok none
    else firstReplacement h bound solver b (functionCandidates solver b)

/-- The loop of `optimize` (low_degree_bus_interaction_optimizer.rs:53-84): the new bus interactions
and the new constraints. -/
def lowDegreeLoop [Fact p.Prime] (h : Handler p) (rh : RangeHandler p V) (isStateful : ZMod p → Bool)
    (bound : DegreeBound) (solver : Solver p V) : List (BusInteraction (GExpr p V)) →
    Except Panic (List (BusInteraction (GExpr p V)) × List (GExpr p V))
  | [] => .ok ([], [])
  | b :: t => do
    match ← tryReplaceBus h isStateful bound solver b with
    | none =>
      let rest ← lowDegreeLoop h rh isStateful bound solver t
      pure (b :: rest.1, rest.2)
    | some r =>
      let made ← rh.make r.ranges
      let rest ← lowDegreeLoop h rh isStateful bound solver t
      pure (made.getD [b] ++ rest.1,
        if r.constraint.isZero then rest.2 else r.constraint :: rest.2)

/-- `optimize` (low_degree_bus_interaction_optimizer.rs:50-94). -/
def lowDegreeOptimize [Fact p.Prime] (h : Handler p) (rh : RangeHandler p V)
    (isStateful : ZMod p → Bool) (bound : DegreeBound) (s : ConstraintSystem p V)
    (solver : Solver p V) : Except Stop (ConstraintSystem p V × Solver p V) := do
  let r ← liftPanic (lowDegreeLoop h rh isStateful bound solver s.bus)
  let o ← SolverOp.run h solver (.addAlgebraic r.2)
  pure ({ s with bus := r.1, algebraic := s.algebraic ++ r.2 }, o.2)

end Verif
