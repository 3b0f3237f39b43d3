import Verif.Proofs.Interpret
import Verif.Props.Compile

/-!
# C87: interpreting a precompile executes its instructions
-/

set_option linter.unusedSectionVars false

namespace Verif

section
variable {I E X : Type} {vm : VmInterpreter I E X} {u : Unimplemented} {running : X → Bool}

/-- C87: a precompile is prepared exactly if all operands of its instruction are zero and every instruction of its blocks
can be prepared at its own program counter (with 32 bits). The functions are those of the instructions, in order. -/
theorem C87_prepared {apc : ApcExecutor I} {pc : ℕ} {inst : InstrOperands} {pre : ApcPreCompute X} :
    PreComputeImpl vm apc pc inst (.ok pre) ↔
      (inst.a = 0 ∧ inst.b = 0 ∧ inst.c = 0 ∧ inst.d = 0 ∧ inst.e = 0 ∧ inst.f = 0 ∧ inst.g = 0) ∧
      pre.heightChange = apc.heightChange ∧ pre.optimisticConstraints = apc.optimisticConstraints ∧
      List.Forall₂ (fun (x : ℕ × I) h => vm.Prepares (x.1 % 2 ^ 32) x.2 h) (superBlockInstructions 4 apc.blocks)
        pre.originalInstructions := by
  have hany : inst.anyNonzero = false ↔ (inst.a = 0 ∧ inst.b = 0 ∧ inst.c = 0 ∧ inst.d = 0 ∧ inst.e = 0 ∧ inst.f = 0 ∧
      inst.g = 0) := by
    simp [InstrOperands.anyNonzero, and_assoc]
  have hpar : ∀ (L : List (ℕ × I)) (hs : List (X → Option X)),
      L.map (prepareInstruction vm) = hs.map .ok ↔
        List.Forall₂ (fun (x : ℕ × I) h => vm.Prepares (x.1 % 2 ^ 32) x.2 h) L hs := by
    intro L
    induction L with
    | nil =>
      intro hs
      cases hs with
      | nil => exact ⟨fun _ => .nil, fun _ => rfl⟩
      | cons h t => exact ⟨nofun, nofun⟩
    | cons x L ih =>
      intro hs
      cases hs with
      | nil => exact ⟨nofun, nofun⟩
      | cons h t =>
        rw [List.map_cons, List.map_cons, List.cons.injEq, ih, List.forall₂_cons, prepareInstruction_ok, pcU32]
  rw [PreComputeImpl, ← hany]
  cases inst.anyNonzero with
  | true => simp
  | false =>
    simp only [Bool.false_eq_true, if_false, true_and]
    constructor
    · rintro ⟨instrs, h1, h2⟩
      cases instrs with
      | error e => cases h2
      | ok hs =>
        cases h2
        exact ⟨rfl, rfl, (hpar _ _).1 h1⟩
    · rintro ⟨h1, h2, h3⟩
      refine ⟨.ok pre.originalInstructions, (hpar _ _).2 h3, ?_⟩
      cases pre
      simp only at h1 h2
      rw [h1, h2]
      rfl

/-- C87: otherwise preparing it is an error: the instruction of the precompile is invalid, or an instruction of a block
has no executor, or its executor has the error. There is always a result. -/
theorem C87_not_prepared {apc : ApcExecutor I} {pc : ℕ} {inst : InstrOperands} {e : StaticErr}
    (h : PreComputeImpl vm apc pc inst (.error e)) :
    (e = .invalidInstruction pc ∧
      ¬ (inst.a = 0 ∧ inst.b = 0 ∧ inst.c = 0 ∧ inst.d = 0 ∧ inst.e = 0 ∧ inst.f = 0 ∧ inst.g = 0)) ∨
    ∃ x ∈ superBlockInstructions 4 apc.blocks,
      (vm.getExecutor (vm.opcode x.2) = none ∧ e = .executorNotFound (vm.opcode x.2)) ∨
      ∃ executor, vm.getExecutor (vm.opcode x.2) = some executor ∧
        vm.preCompute executor (x.1 % 2 ^ 32) x.2 = .error e := by
  rw [PreComputeImpl] at h
  split at h
  · rename_i ha
    injection h with h
    refine .inl ⟨h, ?_⟩
    rintro ⟨h1, h2, h3, h4, h5, h6, h7⟩
    simp [InstrOperands.anyNonzero, h1, h2, h3, h4, h5, h6, h7] at ha
  · obtain ⟨instrs, h1, h2⟩ := h
    cases instrs with
    | ok hs => cases h2
    | error e' =>
      cases h2
      obtain ⟨x, hx, hp⟩ := List.mem_map.1 h1
      refine .inr ⟨x, hx, ?_⟩
      rw [prepareInstruction] at hp
      cases hg : vm.getExecutor (vm.opcode x.2) with
      | none =>
        rw [hg] at hp
        injection hp with hp
        exact .inl ⟨rfl, hp.symm⟩
      | some ex =>
        rw [hg] at hp
        exact .inr ⟨ex, rfl, hp⟩

theorem C87_prepare_total (apc : ApcExecutor I) (pc : ℕ) (inst : InstrOperands) :
    ∃ r, PreComputeImpl vm apc pc inst r := by
  simp only [PreComputeImpl]
  split
  · exact ⟨_, rfl⟩
  · have : ∀ l : List (Except StaticErr (X → Option X)), ∃ r, ParCollect l r := by
      intro l
      induction l with
      | nil => exact ⟨.ok [], rfl⟩
      | cons a t ih =>
        cases a with
        | error e => exact ⟨.error e, List.mem_cons_self⟩
        | ok h =>
          obtain ⟨r, hr⟩ := ih
          cases r with
          | error e => exact ⟨.error e, List.mem_cons_of_mem _ hr⟩
          | ok hs =>
            refine ⟨.ok (h :: hs), ?_⟩
            rw [ParCollect] at hr ⊢
            rw [hr]
            rfl
    obtain ⟨r, hr⟩ := this ((superBlockInstructions defaultPcStep apc.blocks).map (prepareInstruction vm))
    exact ⟨_, r, hr, rfl⟩

/-- C87: for all optimistic constraints: execution does not panic and ends in `y` exactly if the functions prepared, called
one after the other, end in `y`, and the constraints hold in the states before and after each of them. -/
theorem C87_states {cs : List (OptConstraint Unit ℕ)} {height : ℕ} {hs : List (X → Option X)} {x y : X} :
    executeApc vm u ⟨height, hs, .fromConstraints cs⟩ x = some y ↔ ∃ ys, HandlerRun hs x ys ∧
      (x :: ys).getLast? = some y ∧ AllHold u.limb cs ((x :: ys).map fun z => ⟨vm.pc z, u.reg, u.clk⟩) := by
  rw [executeApc_iff]
  refine exists_congr fun ys => and_congr_right fun _ => and_congr_right fun _ => ?_
  rcases C38_run u.limb cs ((x :: ys).map fun z => (⟨vm.pc z, u.reg, u.clk⟩ : ExecState Unit ℕ)) with
    ⟨h1, ev, h2, -⟩ | ⟨h1, h2⟩
  · exact ⟨fun _ => h1, fun _ => ⟨ev, h2⟩⟩
  · refine ⟨?_, fun h => absurd h h1⟩
    rintro ⟨ev, h3⟩
    have h4 := h2.symm.trans h3
    cases h4

theorem executeApc_entered {blocks : List (BasicBlock I)} {oc : OptConstraints Unit ℕ}
    (hoc : apcOptimisticConstraints pcFitsU32 blocks = .ok oc) {height : ℕ} {hs : List (X → Option X)}
    (hlen : hs.length = (superBlockInstructions 4 blocks).length) {x y : X} :
    executeApc vm u ⟨height, hs, oc⟩ x = some y ↔ ∃ ys, HandlerRun hs x ys ∧ (x :: ys).getLast? = some y ∧
      BlocksEntered pcFitsU32 blocks ((x :: ys).map (vm.execState u)) := by
  rw [executeApc_iff]
  refine exists_congr fun ys => and_congr_right fun hr => and_congr_right fun _ => ?_
  refine C66_entered (step := 4) hoc u.limb _ ?_
  have h1 := handlerRun_length hr
  have h2 := congrArg List.length (superBlockInstructions_fst 4 blocks)
  rw [List.length_map] at h2
  rw [List.length_map, List.length_cons, ← h2, ← hlen, h1]

theorem pcFitsU32_eq {pc v : ℕ} : pcFitsU32 pc = some v ↔ pc < 2 ^ 32 ∧ v = pc := by
  rw [pcFitsU32]
  split
  · rename_i h
    exact ⟨fun e => ⟨h, (Option.some.inj e).symm⟩, fun e => by rw [e.2]⟩
  · rename_i h
    exact ⟨nofun, fun e => absurd e.1 h⟩

theorem forall₂_getElem {α β : Type} {R : α → β → Prop} {l : List α} {m : List β} (h : List.Forall₂ R l m) {k : ℕ} {a : α}
    (hk : l[k]? = some a) : ∃ b, m[k]? = some b ∧ R a b := by
  induction h generalizing k with
  | nil => simp at hk
  | cons h t ih =>
    cases k with
    | zero =>
      simp at hk
      subst hk
      exact ⟨_, rfl, h⟩
    | succ k => exact ih (by simpa using hk)

theorem handlerRun_running (hstop : vm.StopsForGood running) {L : List (ℕ × I)} {hs : List (X → Option X)} {x : X}
    {ys : List X} (hr : HandlerRun hs x ys)
    (hp : List.Forall₂ (fun (x : ℕ × I) h => vm.Prepares (x.1 % 2 ^ 32) x.2 h) L hs) {y : X}
    (hlast : (x :: ys).getLast? = some y) (hy : running y = true) : ∀ z ∈ x :: ys, running z = true := by
  induction hr generalizing L with
  | nil x =>
    simp at hlast
    subst hlast
    simpa using hy
  | cons call rest ih =>
    cases hp with
    | cons h1 h2 =>
      rw [List.getLast?_cons_cons] at hlast
      have := ih h2 hlast
      intro z hz
      rcases List.mem_cons.1 hz with rfl | hz
      · exact hstop _ _ _ _ _ h1 call (this _ List.mem_cons_self)
      · exact this z hz

theorem holds_unique {prog : VmProgram I} {pc : ℕ} {i i' : I} (h : prog.Holds pc i) (h' : prog.Holds pc i') : i = i' := by
  obtain ⟨s, h1, h2⟩ := h
  obtain ⟨s', h3, h4⟩ := h'
  obtain rfl : s = s' := by omega
  rw [h2] at h4
  cases h4
  rfl

theorem blocks_hold {isBranching : I → Bool} {prog : VmProgram I} {blocks : List (BasicBlock I)}
    (hb : BlocksOfProgram isBranching prog blocks) {x : ℕ × I} (hx : x ∈ superBlockInstructions 4 blocks) :
    prog.Holds x.1 x.2 ∧ x.1 < 2 ^ 32 := by
  obtain ⟨b, hbm, j, h1, h2⟩ := mem_superBlockInstructions.1 hx
  obtain ⟨s, h3, h4⟩ := hb.code b hbm
  have hj := (List.getElem?_eq_some_iff.1 h1).1
  refine ⟨⟨s + j, by rw [h2, h3]; ring, ?_⟩, ?_⟩
  · have : (b.instructions.map some)[j]? = some (some x.2) := by rw [List.getElem?_map, h1]; rfl
    rw [← h4, List.getElem?_take, if_pos hj, List.getElem?_drop] at this
    exact this
  · have := hb.small b hbm
    omega

theorem vmPath_of_run {prog : VmProgram I} {L : List (ℕ × I)} {hs : List (X → Option X)} {x y : X} {ys : List X}
    (hr : HandlerRun hs x ys) (hlast : (x :: ys).getLast? = some y)
    (hp : List.Forall₂ (fun (x : ℕ × I) h => vm.Prepares (x.1 % 2 ^ 32) x.2 h) L hs)
    (hrun : ∀ z ∈ x :: ys, running z = true) (hL : ∀ a ∈ L, prog.Holds a.1 a.2 ∧ a.1 < 2 ^ 32)
    (hpc : ∀ (k : ℕ) (a : ℕ × I), L[k]? = some a → ∃ z, (x :: ys)[k]? = some z ∧ vm.pc z = a.1) :
    VmPath vm running prog (L.map Prod.fst) x y := by
  induction hr generalizing L with
  | nil x =>
    cases hp
    simp at hlast
    subst hlast
    exact .nil x
  | cons call rest ih =>
    cases hp with
    | @cons a _ L' _ h1 h2 =>
      obtain ⟨h3, h4⟩ := hL a List.mem_cons_self
      obtain ⟨z, h5, h6⟩ := hpc 0 a rfl
      simp at h5
      subst h5
      rw [List.getLast?_cons_cons] at hlast
      rw [List.map_cons, ← h6]
      rw [Nat.mod_eq_of_lt h4, ← h6] at h1
      refine .cons ⟨hrun _ List.mem_cons_self, a.2, _, h6 ▸ h3, h1, call⟩ (ih hlast h2
        (fun z hz => hrun z (List.mem_cons_of_mem _ hz)) (fun a ha => hL a (List.mem_cons_of_mem _ ha)) ?_)
      intro k a' hk
      obtain ⟨z, h7, h8⟩ := hpc (k + 1) a' (by simpa using hk)
      exact ⟨z, by simpa using h7, h8⟩

theorem run_of_vmPath {prog : VmProgram I} {L : List (ℕ × I)} : ∀ {hs : List (X → Option X)} {x y : X},
    List.Forall₂ (fun (x : ℕ × I) h => vm.Prepares (x.1 % 2 ^ 32) x.2 h) L hs →
    (∀ a ∈ L, prog.Holds a.1 a.2 ∧ a.1 < 2 ^ 32) → VmPath vm running prog (L.map Prod.fst) x y →
    ∃ ys, HandlerRun hs x ys ∧ (x :: ys).getLast? = some y ∧
      ∀ (k : ℕ) (a : ℕ × I), L[k]? = some a → ∃ z, (x :: ys)[k]? = some z ∧ vm.pc z = a.1 := by
  induction L with
  | nil =>
    intro hs x y hp _ h
    cases hp
    rw [List.map_nil] at h
    cases h
    exact ⟨[], .nil x, rfl, fun k a hk => by simp at hk⟩
  | cons a L ih =>
    intro hs x y hp hL h
    rw [List.map_cons] at h
    generalize hpcs : a.1 :: L.map Prod.fst = pcs at h
    cases h with
    | nil => cases hpcs
    | cons step rest =>
      injection hpcs with e1 e2
      subst e2
      cases hp with
      | cons h1 h2 =>
        obtain ⟨-, i, f, g1, g2, g3⟩ := step
        obtain ⟨h3, h4⟩ := hL a List.mem_cons_self
        rw [e1] at h3
        rw [Nat.mod_eq_of_lt h4, e1] at h1
        obtain rfl := holds_unique g1 h3
        obtain rfl := prepares_unique g2 h1
        obtain ⟨ys, k1, k2, k3⟩ := ih h2 (fun a ha => hL a (List.mem_cons_of_mem _ ha)) rest
        refine ⟨_ :: ys, .cons g3 k1, by rw [List.getLast?_cons_cons]; exact k2, ?_⟩
        intro k b hk
        cases k with
        | zero =>
          simp at hk
          subst hk
          exact ⟨x, rfl, e1.symm⟩
        | succ k =>
          obtain ⟨z, h7, h8⟩ := k3 k b (by simpa using hk)
          exact ⟨z, by simpa using h7, h8⟩

/-- C87: for a precompile generated for blocks of the program: executing it from `x` does not panic and ends in a running
state `y` exactly if the program without precompiles goes from `x` to `y` executing the instructions of the blocks, in
order. -/
theorem C87_superblock {isBranching : I → Bool} {prog : VmProgram I} {apc : ApcExecutor I}
    (hb : BlocksOfProgram isBranching prog apc.blocks)
    (hoc : apcOptimisticConstraints pcFitsU32 apc.blocks = .ok apc.optimisticConstraints)
    (hstop : vm.StopsForGood running) (hgo : vm.GoesOn running isBranching) {pc : ℕ} {inst : InstrOperands}
    {pre : ApcPreCompute X} (hpre : PreComputeImpl vm apc pc inst (.ok pre)) (u : Unimplemented) (x y : X) :
    (executeApc vm u pre x = some y ∧ running y = true) ↔
      (VmPath vm running prog (superBlockPcs 4 apc.blocks) x y ∧ running y = true) := by
  refine and_congr_left fun hy => ?_
  obtain ⟨-, -, h2, h3⟩ := C87_prepared.1 hpre
  obtain ⟨height, hs, oc⟩ := pre
  simp only at h2 h3
  subst h2
  rw [executeApc_entered hoc h3.length_eq.symm, ← superBlockInstructions_fst]
  have hL : ∀ a ∈ superBlockInstructions 4 apc.blocks, prog.Holds a.1 a.2 ∧ a.1 < 2 ^ 32 := fun a ha => blocks_hold hb ha
  constructor
  · rintro ⟨ys, h4, h5, h6⟩
    have hrun := handlerRun_running hstop h4 h3 h5 hy
    refine vmPath_of_run h4 h5 h3 hrun hL ?_
    -- the program counters
    have key : ∀ before b after, apc.blocks = before ++ b :: after → ∀ (j : ℕ) (i : I), b.instructions[j]? = some i →
        ∃ z, (x :: ys)[(before.flatMap fun b => b.instructions).length + j]? = some z ∧
          vm.pc z = b.startPc + j * 4 := by
      intro before b after he j
      induction j with
      | zero =>
        intro i _
        obtain ⟨st, g1, g2⟩ := h6 before b after he
        rw [List.getElem?_map, Option.map_eq_some_iff] at g1
        obtain ⟨z, g3, rfl⟩ := g1
        obtain ⟨-, g4⟩ := pcFitsU32_eq.1 g2
        exact ⟨z, by simpa using g3, by rw [Nat.zero_mul, Nat.add_zero]; exact g4⟩
      | succ j ih =>
        intro i hi
        have hj : j < b.instructions.length := by
          have := (List.getElem?_eq_some_iff.1 hi).1
          omega
        have hbm : b ∈ apc.blocks := by rw [he]; simp
        obtain ⟨z, g1, g2⟩ := ih _ (List.getElem?_eq_getElem hj)
        have hat := superBlockInstructions_at 4 (before := before) (after := after) (List.getElem?_eq_getElem hj)
        rw [← he] at hat
        obtain ⟨f, g3, g4⟩ := forall₂_getElem h3 hat
        obtain ⟨a, a', g5, g6, g7⟩ := handlerRun_step h4 g3
        rw [g1] at g5
        cases g5
        refine ⟨a', g6, ?_⟩
        have hlt := (blocks_hold hb (List.mem_of_getElem? hat)).2
        simp only at g4 hlt
        rw [Nat.mod_eq_of_lt hlt] at g4
        have hbr : isBranching b.instructions[j] = false := by
          by_contra hc
          have hj' := hb.branch b hbm j _ (List.getElem?_eq_getElem hj) (by simpa using hc)
          have := (List.getElem?_eq_some_iff.1 hi).1
          omega
        rw [hgo _ _ _ _ _ g4 hbr g2 g7 (hrun _ (List.mem_of_getElem? g6))]
        ring
    intro k a hk
    have hk' : (superBlockPcs 4 apc.blocks)[k]? = some a.1 := by
      rw [← superBlockInstructions_fst, List.getElem?_map, hk]
      rfl
    obtain ⟨before, b, after, j, he, hj, rfl, e⟩ := superBlockPcs_getElem.1 hk'
    obtain ⟨z, g1, g2⟩ := key before b after he j _ (List.getElem?_eq_getElem hj)
    exact ⟨z, g1, by rw [g2, e]⟩
  · intro hpath
    obtain ⟨ys, h4, h5, h6⟩ := run_of_vmPath h3 hL hpath
    refine ⟨ys, h4, h5, ?_⟩
    intro before b after he
    have hbm : b ∈ apc.blocks := by rw [he]; simp
    have hpos := List.length_pos_iff.2 (hb.nonempty b hbm)
    have hat := superBlockInstructions_at 4 (before := before) (after := after) (List.getElem?_eq_getElem hpos)
    rw [← he] at hat
    obtain ⟨z, g1, g2⟩ := h6 _ _ hat
    refine ⟨vm.execState u z, ?_, ?_⟩
    · rw [List.getElem?_map]
      simp only [Nat.add_zero] at g1
      rw [g1]
      rfl
    · have := (hL _ (List.mem_of_getElem? hat)).2
      simp only [Nat.zero_mul, Nat.add_zero] at g2 this
      exact pcFitsU32_eq.2 ⟨this, g2⟩

/-- C87: with one basic block, execution from the start of the block is calling the functions prepared, and there is no
further check: it panics only if one of them does. From any other program counter it panics. -/
theorem C87_block {b : BasicBlock I} {apc : ApcExecutor I} (hblocks : apc.blocks = [b])
    (hoc : apcOptimisticConstraints pcFitsU32 apc.blocks = .ok apc.optimisticConstraints) {pc : ℕ} {inst : InstrOperands}
    {pre : ApcPreCompute X} (hpre : PreComputeImpl vm apc pc inst (.ok pre)) (u : Unimplemented) (x : X) :
    executeApc vm u pre x =
      if vm.pc x = b.startPc then pre.originalInstructions.foldlM (fun x h => h x) x else none := by
  obtain ⟨-, -, h2, h3⟩ := C87_prepared.1 hpre
  obtain ⟨height, hs, oc⟩ := pre
  simp only at h2 h3
  subst h2
  have hfit : b.startPc < 2 ^ 32 := by
    have := (C66_panic (A := Unit) apc.blocks).1 ⟨_, hoc⟩ b (by simp [hblocks])
    obtain ⟨v, hv⟩ := Option.isSome_iff_exists.1 this
    exact (pcFitsU32_eq.1 hv).1
  have hent : ∀ ys, BlocksEntered pcFitsU32 apc.blocks ((x :: ys).map (vm.execState u)) ↔ vm.pc x = b.startPc := by
    intro ys
    constructor
    · intro h
      obtain ⟨st, g1, g2⟩ := h [] b [] (by simp [hblocks])
      simp at g1
      subst g1
      exact (pcFitsU32_eq.1 g2).2
    · intro h before b' after he
      rw [hblocks] at he
      cases before with
      | nil =>
        injection he with e1 e2
        subst e1
        exact ⟨_, rfl, pcFitsU32_eq.2 ⟨hfit, h⟩⟩
      | cons c before => simp at he
  ext y
  rw [executeApc_entered hoc h3.length_eq.symm]
  simp only [hent]
  split
  · rename_i h
    rw [← handlerRun_fold]
    simp [h]
  · rename_i h
    simp [h]

theorem fold_asExec (hstop : vm.StopsForGood running) {isa : IsaInfo I}
    (hstraight : (vm.asExec running).GoesStraight isa) : ∀ {is : List I} {start : ℕ} {hs : List (X → Option X)} {x : X},
    (∀ (j : ℕ) i, is[j]? = some i → isa.isBranching i = true → j + 1 = is.length) →
    List.Forall₂ (fun (x : ℕ × I) h => vm.Prepares (x.1 % 2 ^ 32) x.2 h)
      (is.zipIdx.map fun x => (start + x.2 * 4, x.1)) hs → start + is.length * 4 ≤ 2 ^ 32 → vm.pc x = start →
    running x = true →
    (hs.foldlM (fun (x : X) (h : X → Option X) => h x) x).filter running = is.foldlM (fun s i => (vm.asExec running).exec i s) x := by
  intro is
  induction is with
  | nil =>
    intro start hs x _ hp _ _ hx
    simp only [List.zipIdx_nil, List.map_nil] at hp
    cases hp
    simp [pure, hx]
  | cons i is ih =>
    intro start hs x hbr hp hsmall hpc hx
    rw [List.zipIdx_cons, List.map_cons] at hp
    cases hp with
    | @cons _ f _ hs' h1 h2 =>
      simp only [Nat.zero_mul, Nat.add_zero] at h1
      rw [List.length_cons] at hsmall
      rw [Nat.mod_eq_of_lt (by omega)] at h1
      have hexec : ∀ z, vm.pc z = start → (vm.asExec running).exec i z = (f z).filter running := by
        intro z hz
        obtain ⟨e, g1, g2⟩ := h1
        simp only [VmInterpreter.asExec, g1, Option.map_some, hz, g2]
      rw [List.foldlM_cons, List.foldlM_cons, hexec x hpc]
      cases hf : f x with
      | none => rfl
      | some y =>
        simp only [bind, Option.bind_some]
        cases hy : running y with
        | false =>
          have hnone : ∀ {l : List (ℕ × I)} {hs : List (X → Option X)} {y : X},
              List.Forall₂ (fun (x : ℕ × I) h => vm.Prepares (x.1 % 2 ^ 32) x.2 h) l hs → running y = false →
              (hs.foldlM (fun (x : X) (h : X → Option X) => h x) y).filter running = none := by
            intro l hs y hl hy
            induction hl generalizing y with
            | nil => simp [pure, hy]
            | @cons a b l1 l2 k1 k2 ih =>
              rw [List.foldlM_cons]
              cases hz : b y with
              | none => rfl
              | some z =>
                refine ih ?_
                by_contra hc
                have := hstop _ _ _ _ _ k1 hz (by simpa using hc)
                rw [hy] at this
                cases this
          rw [hnone h2 hy, show Option.filter running (some y) = none by rw [Option.filter_some, if_neg (by simp [hy])]]
          rfl
        | true =>
          have hfilt : Option.filter running (some y) = some y := by simp [hy]
          rw [hfilt]
          change _ = List.foldlM (fun s i => (vm.asExec running).exec i s) y is
          cases is with
          | nil =>
            simp only [List.zipIdx_nil, List.map_nil] at h2
            cases h2
            simp [pure, hy]
          | cons i' is =>
            have hnb : isa.isBranching i = false := by
              by_contra hc
              have := hbr 0 i rfl (by simpa using hc)
              simp at this
            have hpc' : vm.pc y = start + 4 := by
              have := hstraight i x y hnb (by rw [hexec x hpc, hf]; simp [hy])
              rw [← hpc]
              exact this
            refine ih (start := start + 4) ?_ ?_ (by omega) hpc' hy
            · intro j a hj ha
              have := hbr (j + 1) a (by simpa using hj) ha
              simpa using this
            · rw [List.zipIdx_eq_map_add, List.map_map] at h2
              refine Eq.mp ?_ h2
              congr 2
              funext a
              simp only [Function.comp, Prod.mk.injEq, and_true]
              ring

/-- C87: a precompile for a basic block of the program, executed from its start in a running state, has the effect of the
instructions it was generated for, one after the other: the step of execution with precompiles in C70 is what the
interpreter does. -/
theorem C87_step {isa : IsaInfo I} {prog : VmProgram I} {apc : ApcExecutor I} {s : ℕ} {is : List I}
    (hb : StandsAt isa prog apc.blocks s is) (hsmall : prog.pcBase + s * 4 + is.length * 4 ≤ 2 ^ 32)
    (hoc : apcOptimisticConstraints pcFitsU32 apc.blocks = .ok apc.optimisticConstraints)
    (hstop : vm.StopsForGood running) (hstraight : (vm.asExec running).GoesStraight isa) {pc : ℕ} {inst : InstrOperands}
    {pre : ApcPreCompute X} (hpre : PreComputeImpl vm apc pc inst (.ok pre)) (u : Unimplemented) {x : X}
    (hx : running x = true) (hpc : vm.pc x = prog.pcBase + s * 4) :
    (executeApc vm u pre x).filter running =
      (apc.blocks.flatMap (·.instructions)).foldlM (fun s i => (vm.asExec running).exec i s) x := by
  rw [C87_block hb.block hoc hpre u x, if_pos hpc, hb.block]
  obtain ⟨-, -, -, h3⟩ := C87_prepared.1 hpre
  rw [hb.block, superBlockInstructions, List.flatMap_cons, List.flatMap_nil, List.append_nil,
    BasicBlock.pcInstructions] at h3
  simp only [List.flatMap_cons, List.flatMap_nil, List.append_nil]
  exact fold_asExec hstop hstraight hb.branch h3 hsmall hpc hx

/-- C87: metered execution reports the change of height for the chip once, before the instructions, whose functions do not
report anything; apart from what is reported, the result is that of pure execution. `core` is the state without the
context. -/
theorem C87_metered {C : Type} (core : X → C) (reports : X → List (ℕ × ℕ))
    (hheight : ∀ chip height x, core (vm.onHeightChange chip height x) = core x ∧
      reports (vm.onHeightChange chip height x) = reports x ++ [(chip, height)])
    (hpc : ∀ x x', core x = core x' → vm.pc x = vm.pc x')
    (hprep : ∀ pc i h, vm.Prepares pc i h → (∀ x x', core x = core x' → (h x).map core = (h x').map core) ∧
      ∀ x y, h x = some y → reports y = reports x)
    {apc : ApcExecutor I} {pc : ℕ} {inst : InstrOperands} {pre : ApcPreCompute X}
    (hpre : PreComputeImpl vm apc pc inst (.ok pre)) (u : Unimplemented) (chip : ℕ) (x : X) :
    (executeApcMetered vm u chip pre x).map core = (executeApc vm u pre x).map core ∧
    ∀ y, executeApcMetered vm u chip pre x = some y → reports y = reports x ++ [(chip, apc.heightChange)] := by
  obtain ⟨-, h1, h2, h3⟩ := C87_prepared.1 hpre
  obtain ⟨height, hs, oc⟩ := pre
  simp only at h1 h2 h3
  subst h1 h2
  have hall : ∀ h ∈ hs, (∀ x x', core x = core x' → (h x).map core = (h x').map core) ∧
      ∀ x y, h x = some y → reports y = reports x := by
    intro h hh
    obtain ⟨k, hk⟩ := List.mem_iff_getElem?.1 hh
    obtain ⟨a, -, ha⟩ := forall₂_getElem h3.flip hk
    exact hprep _ _ _ ha
  clear h3 hpre
  have hassert : ∀ ev x x', core x = core x' → assertNextStep vm u apc.optimisticConstraints ev x =
      assertNextStep vm u apc.optimisticConstraints ev x' := by
    intro ev x x' hx
    rw [assertNextStep, assertNextStep, VmInterpreter.execState, VmInterpreter.execState, hpc x x' hx]
  have hloop : ∀ ev x x', core x = core x' →
      (interpretInstructions vm u apc.optimisticConstraints hs ev x).map core =
        (interpretInstructions vm u apc.optimisticConstraints hs ev x').map core := by
    induction hs with
    | nil =>
      intro ev x x' hx
      simp [interpretInstructions, hx]
    | cons h t ih =>
      intro ev x x' hx
      rw [interpretInstructions, interpretInstructions]
      have h1 := (hall h List.mem_cons_self).1 x x' hx
      cases hy : h x with
      | none =>
        cases hy' : h x' with
        | none => rfl
        | some y' => rw [hy, hy'] at h1; cases h1
      | some y =>
        cases hy' : h x' with
        | none => rw [hy, hy'] at h1; cases h1
        | some y' =>
          rw [hy, hy'] at h1
          simp only [Option.map_some, Option.some.injEq] at h1
          simp only [bind, Option.bind_some]
          rw [hassert ev y y' h1]
          cases assertNextStep vm u apc.optimisticConstraints ev y' with
          | none => rfl
          | some ev' => exact ih (fun h hh => hall h (List.mem_cons_of_mem _ hh)) ev' y y' h1
  have hrep : ∀ ev x y, interpretInstructions vm u apc.optimisticConstraints hs ev x = some y → reports y = reports x := by
    clear hloop
    induction hs with
    | nil =>
      intro ev x y h
      injection h with h
      rw [h]
    | cons h t ih =>
      intro ev x y hxy
      rw [interpretInstructions] at hxy
      simp only [bind, Option.bind_eq_some_iff] at hxy
      obtain ⟨z, h1, ev', -, h2⟩ := hxy
      rw [ih (fun h hh => hall h (List.mem_cons_of_mem _ hh)) ev' z y h2, (hall h List.mem_cons_self).2 x z h1]
  obtain ⟨g1, g2⟩ := hheight chip apc.heightChange x
  constructor
  · rw [executeApcMetered, executeApc, executeApc]
    simp only [bind]
    rw [hassert _ _ _ g1]
    cases assertNextStep vm u apc.optimisticConstraints .new x with
    | none => rfl
    | some ev => exact hloop ev _ _ g1
  · intro y hy
    rw [executeApcMetered, executeApc] at hy
    simp only [bind, Option.bind_eq_some_iff] at hy
    obtain ⟨ev, -, h2⟩ := hy
    rw [hrep ev _ y h2, g2]

/-- C87: creating the executor panics exactly if an instruction has an opcode without executor; otherwise, preflight
execution uses for every instruction the executor that interpretation uses. -/
theorem C87_executors (blocks : List (BasicBlock I)) :
    ((cachedExecutorIndices vm blocks).isSome ↔
      ∀ b ∈ blocks, ∀ i ∈ b.instructions, (vm.instructionLookup (vm.opcode i)).isSome) ∧
    ∀ cached, cachedExecutorIndices vm blocks = some cached →
      cached.length = (blocks.flatMap fun b => b.instructions).length ∧
      ∀ k i, (blocks.flatMap fun b => b.instructions)[k]? = some i →
        preflightExecutor vm cached k = vm.getExecutor (vm.opcode i) := by
  have hmap : cachedExecutorIndices vm blocks =
      (blocks.flatMap fun b => b.instructions).mapM fun i => vm.instructionLookup (vm.opcode i) := by
    rw [← superBlockInstructions_snd defaultPcStep, List.mapM_map]
    rfl
  rw [hmap]
  have hmem : (∀ b ∈ blocks, ∀ i ∈ b.instructions, (vm.instructionLookup (vm.opcode i)).isSome) ↔
      ∀ i ∈ blocks.flatMap (fun b => b.instructions), (vm.instructionLookup (vm.opcode i)).isSome := by
    simp only [List.mem_flatMap]
    exact ⟨fun h i ⟨b, h1, h2⟩ => h b h1 i h2, fun h b h1 i h2 => h i ⟨b, h1, h2⟩⟩
  rw [hmem]
  generalize (blocks.flatMap fun b => b.instructions) = l
  induction l with
  | nil =>
    refine ⟨by simp, ?_⟩
    intro cached h
    simp at h
    subst h
    simp
  | cons i t ih =>
    rw [List.mapM_cons, List.forall_mem_cons]
    cases hi : vm.instructionLookup (vm.opcode i) with
    | none => simp
    | some a =>
      cases ht : t.mapM fun i => vm.instructionLookup (vm.opcode i) with
      | none =>
        rw [ht] at ih
        simp only [Option.isSome_none, Bool.false_eq_true, false_iff] at ih
        simp only [bind, Option.bind_some, Option.bind_none, Option.isSome_none, Option.isSome_some, Bool.false_eq_true,
          true_and, false_iff]
        exact ⟨ih.1, fun _ h => by cases h⟩
      | some c =>
        rw [ht] at ih
        obtain ⟨h1, h2⟩ := ih
        obtain ⟨h3, h4⟩ := h2 c rfl
        refine ⟨⟨fun _ => ⟨rfl, h1.1 rfl⟩, fun _ => rfl⟩, ?_⟩
        intro cached hc
        simp only [bind, Option.bind_some, pure, Option.some.injEq] at hc
        subst hc
        refine ⟨by simp [h3], ?_⟩
        intro k j hk
        cases k with
        | zero =>
          simp at hk
          subst hk
          simp [preflightExecutor, VmInterpreter.getExecutor, hi]
        | succ k =>
          rw [← h4 k j (by simpa using hk)]
          simp [preflightExecutor]

end

/-! ## Examples -/

/-- A state: program counter, register, whether it runs, and the heights reported. -/
structure SampleVm where
  pc : ℕ
  reg : ℕ
  running : Bool
  reports : List (ℕ × ℕ)
deriving DecidableEq

/-- Instruction 0 adds its own address to the register; instruction 1 jumps to 200 if the register is even, and goes on
otherwise; instruction 2 fails if the register is 7. -/
def sampleInstrFn (pc i : ℕ) (x : SampleVm) : Option SampleVm :=
  if i = 0 then some { x with pc := pc + 4, reg := x.reg + pc }
  else if i = 1 then some { x with pc := if x.reg % 2 = 0 then 200 else pc + 4 }
  else if x.reg = 7 then some { x with running := false }
  else some { x with pc := pc + 4 }

def sampleInterp : VmInterpreter ℕ Unit SampleVm where
  opcode i := i
  instructionLookup o := if o < 3 then some 0 else none
  executors := [()]
  preCompute _ pc i := .ok (sampleInstrFn pc i)
  pc x := x.pc
  onHeightChange chip height x := { x with reports := x.reports ++ [(chip, height)] }

def sampleBranch (i : ℕ) : Bool := i == 1

/-- 100: add, 104: jump; 200: add, 204: test. -/
def sampleInterpProg : VmProgram ℕ := ⟨100, [some 0, some 1] ++ List.replicate 23 none ++ [some 0, some 2], []⟩

def sampleInterpBlocks : List (BasicBlock ℕ) := [⟨100, [0, 1]⟩, ⟨200, [0, 2]⟩]

def sampleInterpApc : ApcExecutor ℕ where
  blocks := sampleInterpBlocks
  optimisticConstraints := .fromConstraints [⟨.literal ⟨0, .pc⟩, .number 100⟩, ⟨.literal ⟨2, .pc⟩, .number 200⟩]
  heightChange := 1

def sampleInterpPre : ApcPreCompute SampleVm :=
  ⟨1, [sampleInstrFn 100 0, sampleInstrFn 104 1, sampleInstrFn 200 0, sampleInstrFn 204 2],
    sampleInterpApc.optimisticConstraints⟩

theorem sampleInterp_prepares {pc i : ℕ} {h : SampleVm → Option SampleVm} :
    sampleInterp.Prepares pc i h ↔ i < 3 ∧ h = sampleInstrFn pc i := by
  simp only [VmInterpreter.Prepares, VmInterpreter.getExecutor, sampleInterp, bind, Option.bind]
  by_cases hi : i < 3
  · simp [hi, eq_comm]
  · simp [hi]

theorem sampleInterp_pre : PreComputeImpl sampleInterp sampleInterpApc 100 ⟨0, 0, 0, 0, 0, 0, 0⟩ (.ok sampleInterpPre) := by
  rw [C87_prepared]
  refine ⟨by decide, rfl, rfl, ?_⟩
  show List.Forall₂ _ [(100, 0), (104, 1), (200, 0), (204, 2)] [_, _, _, _]
  simp only [List.forall₂_cons, sampleInterp_prepares, List.forall₂_nil_left_iff]
  exact ⟨⟨by decide, rfl⟩, ⟨by decide, rfl⟩, ⟨by decide, rfl⟩, ⟨by decide, rfl⟩, trivial⟩

theorem sampleInterp_blocks : BlocksOfProgram sampleBranch sampleInterpProg sampleInterpBlocks where
  several := by decide
  code := by
    intro b hb
    simp only [sampleInterpBlocks, List.mem_cons, List.not_mem_nil, or_false] at hb
    rcases hb with rfl | rfl
    · exact ⟨0, rfl, rfl⟩
    · exact ⟨25, rfl, rfl⟩
  nonempty := by decide
  branch := by
    intro b hb j i h1 h2
    simp only [sampleInterpBlocks, List.mem_cons, List.not_mem_nil, or_false] at hb
    rcases hb with rfl | rfl
    · rcases j with _ | _ | j
      · cases h1; cases h2
      · rfl
      · cases h1
    · rcases j with _ | _ | j
      · cases h1; cases h2
      · cases h1; cases h2
      · cases h1
  small := by decide

theorem sampleInterp_stops : sampleInterp.StopsForGood SampleVm.running := by
  intro pc i h x y hp hxy hy
  obtain ⟨-, rfl⟩ := sampleInterp_prepares.1 hp
  rw [sampleInstrFn] at hxy
  split_ifs at hxy <;> cases hxy <;> first | exact hy | cases hy

theorem sampleInterp_goesOn : sampleInterp.GoesOn SampleVm.running sampleBranch := by
  intro pc i h x y hp hb hx hxy hy
  obtain ⟨-, rfl⟩ := sampleInterp_prepares.1 hp
  rw [sampleInstrFn] at hxy
  have hi : i ≠ 1 := by
    rintro rfl
    cases hb
  split_ifs at hxy <;> cases hxy <;> first | rfl | cases hy

/-- The register is even after the first instruction: the jump is taken, and the program executes the instructions of both
blocks. -/
example : VmPath sampleInterp SampleVm.running sampleInterpProg [100, 104, 200, 204] ⟨100, 4, true, []⟩
    ⟨208, 304, true, []⟩ :=
  ((C87_superblock sampleInterp_blocks rfl sampleInterp_stops sampleInterp_goesOn sampleInterp_pre
    ⟨fun _ => 0, fun _ _ => 0, 0⟩ _ _).1 ⟨by decide +kernel, rfl⟩).1

/-- It is odd: the jump is not taken, and the precompile panics. -/
example : executeApc sampleInterp ⟨fun _ => 0, fun _ _ => 0, 0⟩ sampleInterpPre ⟨100, 5, true, []⟩ = none := by
  decide +kernel

/-- The height is reported once. -/
example : executeApcMetered sampleInterp ⟨fun _ => 0, fun _ _ => 0, 0⟩ 9 sampleInterpPre ⟨100, 4, true, []⟩ =
    some ⟨208, 304, true, [(9, 1)]⟩ := by
  decide +kernel

example : ∀ y, executeApcMetered sampleInterp ⟨fun _ => 0, fun _ _ => 0, 0⟩ 9 sampleInterpPre ⟨100, 4, true, []⟩ = some y →
    y.reports = [(9, 1)] := by
  refine (C87_metered (vm := sampleInterp) (fun x => (x.pc, x.reg, x.running)) SampleVm.reports ?_ ?_ ?_ sampleInterp_pre
    ⟨fun _ => 0, fun _ _ => 0, 0⟩ 9 ⟨100, 4, true, []⟩).2
  · exact fun _ _ _ => ⟨rfl, rfl⟩
  · intro x x' h
    exact congrArg Prod.fst h
  · intro pc i h hp
    obtain ⟨-, rfl⟩ := sampleInterp_prepares.1 hp
    constructor
    · rintro ⟨a, b, c, d⟩ ⟨a', b', c', d'⟩ h
      simp only [Prod.mk.injEq] at h
      obtain ⟨rfl, rfl, rfl⟩ := h
      simp only [sampleInstrFn]
      split_ifs <;> rfl
    · intro x y hxy
      rw [sampleInstrFn] at hxy
      split_ifs at hxy <;> cases hxy <;> rfl

/-- A precompile for the second block, which stands at index 25. -/
example : ∀ x : SampleVm, x.running = true → x.pc = 200 →
    (executeApc sampleInterp ⟨fun _ => 0, fun _ _ => 0, 0⟩
      ⟨1, [sampleInstrFn 200 0, sampleInstrFn 204 2], .fromConstraints [⟨.literal ⟨0, .pc⟩, .number 200⟩]⟩ x).filter
        SampleVm.running =
      [0, 2].foldlM (fun s i => (sampleInterp.asExec SampleVm.running).exec i s) x := by
  intro x hx hpc
  refine C87_step (isa := ⟨sampleBranch, fun _ => true, fun _ => false⟩) (prog := sampleInterpProg) (s := 25)
    (apc := ⟨[⟨200, [0, 2]⟩], .fromConstraints [⟨.literal ⟨0, .pc⟩, .number 200⟩], 1⟩) (is := [0, 2]) (pc := 200)
    (inst := ⟨0, 0, 0, 0, 0, 0, 0⟩) ⟨rfl, rfl, by decide, by simp, ?_, by simp⟩ (by decide) rfl sampleInterp_stops ?_ ?_ _ hx
    hpc
  · intro j i h1 h2
    rcases j with _ | _ | j
    · cases h1; cases h2
    · rfl
    · cases h1
  · intro i x y hb hxy
    simp only [VmInterpreter.asExec] at hxy
    split at hxy
    · rename_i h heq
      obtain ⟨hf, hr⟩ := Option.filter_eq_some_iff.1 hxy
      rw [Option.map_eq_some_iff] at heq
      obtain ⟨e, h1, h2⟩ := heq
      exact sampleInterp_goesOn _ _ _ _ _ ⟨e, h1, h2⟩ hb rfl hf hr
    · cases hxy
  · rw [C87_prepared]
    refine ⟨by decide, rfl, rfl, ?_⟩
    show List.Forall₂ _ [(200, 0), (204, 2)] [_, _]
    simp only [List.forall₂_cons, sampleInterp_prepares, List.forall₂_nil_left_iff]
    exact ⟨⟨by decide, rfl⟩, ⟨by decide, rfl⟩, trivial⟩

/-- An opcode without executor, and operands that are not zero. -/
example : PreComputeImpl sampleInterp ⟨[⟨100, [0, 5]⟩], .fromConstraints [], 1⟩ 100 ⟨0, 0, 0, 0, 0, 0, 0⟩
    (.error (.executorNotFound 5)) :=
  ⟨.error (.executorNotFound 5), List.mem_cons_of_mem _ List.mem_cons_self, rfl⟩

example : PreComputeImpl sampleInterp sampleInterpApc 100 ⟨0, 0, 0, 0, 0, 0, 1⟩ (.error (.invalidInstruction 100)) := rfl

example : cachedExecutorIndices sampleInterp sampleInterpBlocks = some [0, 0, 0, 0] := by decide +kernel

end Verif
