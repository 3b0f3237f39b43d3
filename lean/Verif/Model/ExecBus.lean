import Verif.Model.Machine

/-!
# Model of the execution bus optimisation

`autoprecompiles/src/optimizer.rs`, lines 199-247.
-/

namespace Verif

section
variable {T R : Type}

/-- The closure of the call to `retain` (optimizer.rs:207-237), run over the remaining interactions in
order. The arguments are the variables `first_seen`, `receive` and `latest_send`; the result is the
list of retained interactions, the new constraints and the final value of `latest_send`. The panics are
`unwrap` and `zip_eq` (lines 225-228). -/
def execBusRetain (execBus : ℕ) : List (SymBus T R) → Bool → Bool → Option (SymBus T R) →
    Except Panic (List (SymBus T R) × List (AlgExpr T R) × Option (SymBus T R))
  | [], _, _, latestSend => .ok ([], [], latestSend)
  | b :: t, firstSeen, receive, latestSend =>
    if b.id ≠ execBus then do
      let r ← execBusRetain execBus t firstSeen receive latestSend
      pure (b :: r.1, r.2)
    else if !firstSeen then do
      let r ← execBusRetain execBus t true (!receive) latestSend
      pure (b :: r.1, r.2)
    else if !receive then
      execBusRetain execBus t firstSeen (!receive) (some b)
    else
      match latestSend with
      | none => .error .assertion
      | some send =>
        if b.args.length ≠ send.args.length then .error .assertion
        else do
          let r ← execBusRetain execBus t firstSeen (!receive) latestSend
          pure (r.1, (b.args.zip send.args).map
            (fun x => (AlgExpr.binary x.1 .sub x.2).toConstraint) ++ r.2.1, r.2.2)

/-- `optimize_exec_bus` (optimizer.rs:199-247). -/
def optimizeExecBus (m : SymMachine T R) (execBus : ℕ) : Except Panic (SymMachine T R) := do
  let r ← execBusRetain execBus m.bus false true none
  match r.2.2 with
  | none => .error .assertion
  | some send => pure { m with bus := r.1 ++ [send], constraints := m.constraints ++ r.2.1 }

end

end Verif
