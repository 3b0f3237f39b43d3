import Verif.Proofs.ExecBus
import Verif.Props.Machine

/-!
# C55: the execution bus optimisation
-/

set_option linter.unusedSectionVars false

namespace Verif

section
variable {F R : Type}

/-- C55: the optimisation succeeds exactly if there is a receive and a send and each state that is sent
and received again has the same number of fields in both interactions. -/
theorem C55_defined {m : SymMachine F R} {execBus : ℕ} :
    (∃ m', optimizeExecBus m execBus = .ok m') ↔ 2 ≤ (m.onBus execBus).length ∧
      ∀ s r, m.Consecutive execBus s r → r.args.length = s.args.length := by
  constructor
  · rintro ⟨m', h⟩
    obtain ⟨l1, r, l2, s, h1, h2, h3, h4, h5, h6, -⟩ := optimizeExecBus_ok h
    constructor
    · rw [h4]
      cases hl : l2.filter fun b => b.id = execBus with
      | nil => rw [hl] at h6; cases h6
      | cons => simp
    · rintro s r ⟨k, hs, hr⟩
      rw [h4] at hs hr
      exact h5 (s, r) ((mem_twoByTwo _ _).2 ⟨k, by simpa using hs, by simpa using hr⟩)
  · rintro ⟨h1, h2⟩
    rcases execBusRetain_false execBus m.bus with ⟨h3, -⟩ | ⟨l1, r, l2, h3, h4, h5, h6⟩
    · rw [SymMachine.onBus, h3] at h1
      simp at h1
    · have h7 : m.onBus execBus = r :: l2.filter fun b => b.id = execBus := by
        rw [SymMachine.onBus, h3, List.filter_append, List.filter_cons_of_pos (by simpa using h5),
          List.filter_eq_nil_iff.2 (by simpa using h4), List.nil_append]
      rw [optimizeExecBus, h6, cancelStates, if_pos]
      · rw [lastEven_eq]
        · have h8 : 2 * (((l2.filter fun b => b.id = execBus).length - 1) / 2) <
              (l2.filter fun b => b.id = execBus).length := by
            rw [h7, List.length_cons] at h1
            omega
          simp only [bind, Except.bind, List.getElem?_eq_getElem h8]
          exact ⟨_, rfl⟩
        · rintro h8
          rw [h7, h8] at h1
          simp at h1
      · rintro ⟨s, t⟩ hx
        obtain ⟨k, hs, ht⟩ := (mem_twoByTwo _ _).1 hx
        exact h2 s t ⟨k, by rw [h7]; simpa using hs, by rw [h7]; simpa using ht⟩

/-- C55: the interactions with the other buses are kept, in order, and exactly the first receive and the
last send on the execution bus are kept. -/
theorem C55_interactions {m m' : SymMachine F R} {execBus : ℕ}
    (h : optimizeExecBus m execBus = .ok m') :
    m'.offBus execBus = m.offBus execBus ∧ m'.derived = m.derived ∧
    ∃ r s, (m.onBus execBus)[0]? = some r ∧
      (m.onBus execBus)[2 * ((m.onBus execBus).length / 2) - 1]? = some s ∧
      m'.onBus execBus = [r, s] := by
  obtain ⟨l1, r, l2, s, h1, h2, h3, h4, h5, h6, h7, h8, h9⟩ := optimizeExecBus_ok h
  have hne : (l2.filter fun b => b.id = execBus) ≠ [] := by
    intro h
    rw [h] at h6
    cases h6
  rw [lastEven_eq _ _ hne] at h6
  have hs : s.id = execBus := by
    have := List.mem_of_getElem? h6
    simpa using (List.mem_filter.1 this).2
  have e1 : l1.filter (fun b => b.id = execBus) = [] := List.filter_eq_nil_iff.2 (by simpa using h2)
  have e2 : l1.filter (fun b => b.id ≠ execBus) = l1 := List.filter_eq_self.2 (by simpa using h2)
  refine ⟨?_, h9, r, s, by simp [h4], ?_, ?_⟩
  · rw [SymMachine.offBus, SymMachine.offBus, h7, h1]
    simp only [List.filter_append, List.filter_cons, e2, h3, hs]
    simp
  · rw [h4, List.length_cons]
    have : 0 < (l2.filter fun b => b.id = execBus).length := List.length_pos_iff.2 hne
    rw [show 2 * (((l2.filter fun b => b.id = execBus).length + 1) / 2) - 1 =
      2 * (((l2.filter fun b => b.id = execBus).length - 1) / 2) + 1 by omega, List.getElem?_cons_succ,
      h6]
  · rw [SymMachine.onBus, h7]
    simp only [List.filter_append, List.filter_cons, e1, h3, hs]
    simp

end

section
variable {F R : Type} [CommRing F]

theorem stateEqualities_hold {σ : R → F} {x : SymBus F R × SymBus F R}
    (h : x.2.args.length = x.1.args.length) :
    (∀ e ∈ stateEqualities x, e.value σ = 0) ↔
      x.2.args.map (AlgExpr.value σ) = x.1.args.map (AlgExpr.value σ) := by
  obtain ⟨s, r⟩ := x
  simp only [stateEqualities] at h ⊢
  generalize r.args = a, s.args = b at h
  induction a generalizing b with
  | nil => cases b with
    | nil => simp
    | cons => simp at h
  | cons x a ih => cases b with
    | nil => simp at h
    | cons y b =>
      simp only [List.zip_cons_cons, List.map_cons, List.mem_cons, forall_eq_or_imp,
        List.cons.injEq]
      rw [ih b (by simpa using h)]
      simp [AlgExpr.toConstraint, AlgExpr.value, sub_eq_zero]

/-- C55: a row satisfies the result exactly if it satisfies the machine and receives each state it has
sent before. -/
theorem C55_rows {m m' : SymMachine F R} {execBus : ℕ} (h : optimizeExecBus m execBus = .ok m')
    (σ : R → F) : m'.Holds σ ↔ m.Holds σ ∧ m.Chained execBus σ := by
  obtain ⟨l1, r, l2, s, h1, h2, h3, h4, h5, h6, h7, h8, h9⟩ := optimizeExecBus_ok h
  rw [SymMachine.Holds, h8]
  simp only [List.mem_append, or_imp, forall_and]
  refine and_congr Iff.rfl ?_
  rw [SymMachine.Chained]
  constructor
  · rintro h s r ⟨k, hs, hr⟩
    have hx : (s, r) ∈ twoByTwo (l2.filter fun b => b.id = execBus) :=
      (mem_twoByTwo _ _).2 ⟨k, by simpa [h4] using hs, by simpa [h4] using hr⟩
    exact (stateEqualities_hold (h5 _ hx)).1 fun e he => h e (List.mem_flatMap.2 ⟨_, hx, he⟩)
  · intro h e he
    obtain ⟨x, hx, he⟩ := List.mem_flatMap.1 he
    refine (stateEqualities_hold (h5 _ hx)).2 ?_ e he
    obtain ⟨k, hs, hr⟩ := (mem_twoByTwo _ _).1 hx
    exact h _ _ ⟨k, by simpa [h4] using hs, by simpa [h4] using hr⟩

variable [DecidableEq F]

theorem messageBalance_append (l1 l2 : List (ℕ × F × List F)) (id : ℕ) (pl : List F) :
    messageBalance (l1 ++ l2) id pl = messageBalance l1 id pl + messageBalance l2 id pl := by
  simp [messageBalance]

theorem messageBalance_cons (x : ℕ × F × List F) (l : List (ℕ × F × List F)) (id : ℕ) (pl : List F) :
    messageBalance (x :: l) id pl = messageBalance [x] id pl + messageBalance l id pl :=
  messageBalance_append [x] l id pl

theorem messageBalance_filter (l : List (SymBus F R)) (σ : R → F) (q id : ℕ) (pl : List F) :
    messageBalance (l.map (SymBus.message σ)) id pl =
      messageBalance ((l.filter fun b => b.id = q).map (SymBus.message σ)) id pl +
      messageBalance ((l.filter fun b => b.id ≠ q).map (SymBus.message σ)) id pl := by
  induction l with
  | nil => simp [messageBalance]
  | cons b t ih =>
    by_cases hb : b.id = q
    · simp only [List.filter_cons, hb, List.map_cons, decide_true, if_true, ne_eq,
        not_true_eq_false, decide_false, Bool.false_eq_true, if_false]
      rw [messageBalance_cons, messageBalance_cons _ (List.map _ _), ih]
      simp only [ne_eq]
      ring
    · simp only [List.filter_cons, hb, List.map_cons, decide_true, if_true, ne_eq,
        not_false_eq_true, decide_false, Bool.false_eq_true, if_false]
      rw [messageBalance_cons, messageBalance_cons _ (List.map _ _), ih]
      simp only [ne_eq]
      ring

/-- Two messages that cancel. -/
theorem messageBalance_cancel {x y : ℕ × F × List F} (h1 : x.1 = y.1) (h2 : x.2.2 = y.2.2)
    (h3 : x.2.1 + y.2.1 = 0) (id : ℕ) (pl : List F) :
    messageBalance [x] id pl + messageBalance [y] id pl = 0 := by
  unfold messageBalance
  by_cases h : y.1 = id ∧ y.2.2 = pl
  · simp [h1, h2, h, h3]
  · simp [h1, h2, h]

/-- The balance of a list whose pairs cancel. -/
theorem messageBalance_twoByTwo {σ : R → F} {execBus : ℕ} (id : ℕ) (pl : List F) :
    ∀ (l : List (SymBus F R)) (o : Option (SymBus F R)),
    (∀ b ∈ l, b.id = execBus) →
    (∀ x ∈ twoByTwo l, x.2.args.map (AlgExpr.value σ) = x.1.args.map (AlgExpr.value σ)) →
    (∀ x ∈ twoByTwo l, x.1.mult.value σ + x.2.mult.value σ = 0) →
    messageBalance (l.map (SymBus.message σ)) id pl =
      if l.length % 2 = 1 then messageBalance ((lastEven o l).toList.map (SymBus.message σ)) id pl
      else 0
  | [], o, _, _, _ => by simp [messageBalance]
  | [s], o, _, _, _ => by simp [lastEven]
  | s :: r :: t, o, h0, h1, h2 => by
    have ih := messageBalance_twoByTwo id pl t (some s) (fun b hb => h0 b (by simp [hb]))
      (fun x hx => h1 x (by simp [twoByTwo, hx])) (fun x hx => h2 x (by simp [twoByTwo, hx]))
    rw [List.map_cons, List.map_cons, messageBalance_cons, messageBalance_cons (SymBus.message σ r),
      ← add_assoc, messageBalance_cancel (x := s.message σ) (y := r.message σ), zero_add, ih]
    · simp only [List.length_cons, lastEven]
      exact if_congr (by omega) rfl rfl
    · simp [SymBus.message, h0]
    · exact (h1 (s, r) (by simp [twoByTwo])).symm
    · exact h2 (s, r) (by simp [twoByTwo])

theorem execBus_balance {m m' : SymMachine F R} {execBus : ℕ}
    (h : optimizeExecBus m execBus = .ok m') {σ : R → F} (hσ : m.Chained execBus σ)
    (hm : ∀ s r, m.Consecutive execBus s r → s.mult.value σ + r.mult.value σ = 0)
    (id : ℕ) (payload : List F) :
    ∃ s, m.onBus execBus ≠ [] ∧ (m'.onBus execBus)[1]? = some s ∧
      messageBalance (m.messages σ) id payload +
        (if (m.onBus execBus).length % 2 = 0 then 0 else messageBalance [s.message σ] id payload) =
      messageBalance (m'.messages σ) id payload := by
  obtain ⟨h10, -, r', s', -, -, h11⟩ := C55_interactions h
  obtain ⟨l1, r, l2, s, h1, h2, h3, h4, h5, h6, h7, h8, h9⟩ := optimizeExecBus_ok h
  have hp : ∀ x ∈ twoByTwo (l2.filter fun b => b.id = execBus), m.Consecutive execBus x.1 x.2 := by
    intro x hx
    obtain ⟨k, ha, hb⟩ := (mem_twoByTwo _ _).1 hx
    exact ⟨k, by simpa [h4] using ha, by simpa [h4] using hb⟩
  have hb := messageBalance_twoByTwo id payload (l2.filter fun b => b.id = execBus) none
    (σ := σ) (execBus := execBus) (fun b hb => by simpa using (List.mem_filter.1 hb).2)
    (fun x hx => hσ _ _ (hp x hx)) (fun x hx => hm _ _ (hp x hx))
  rw [h6] at hb
  have hs : s.id = execBus := by
    have hne : (l2.filter fun b => b.id = execBus) ≠ [] := by
      intro h
      rw [h] at h6
      cases h6
    rw [lastEven_eq _ _ hne] at h6
    simpa using (List.mem_filter.1 (List.mem_of_getElem? h6)).2
  have h12 : m'.onBus execBus = [r, s] := by
    have e1 : l1.filter (fun b => b.id = execBus) = [] :=
      List.filter_eq_nil_iff.2 (by simpa using h2)
    rw [SymMachine.onBus, h7]
    simp only [List.filter_append, List.filter_cons, e1, h3, hs]
    simp
  refine ⟨s, by simp [h4], by simp [h12], ?_⟩
  rw [SymMachine.messages, SymMachine.messages, messageBalance_filter m.bus σ execBus,
    messageBalance_filter m'.bus σ execBus]
  change messageBalance ((m.onBus execBus).map _) id payload +
    messageBalance ((m.offBus execBus).map _) id payload + _ =
    messageBalance ((m'.onBus execBus).map _) id payload +
    messageBalance ((m'.offBus execBus).map _) id payload
  rw [h10, h12, h4, List.map_cons, messageBalance_cons, hb, List.length_cons, List.map_cons,
    messageBalance_cons (r.message σ) (List.map _ [s])]
  by_cases hl : (l2.filter fun b => b.id = execBus).length % 2 = 1
  · rw [if_pos hl, if_pos (by omega)]
    simp only [Option.toList, List.map_cons, List.map_nil]
    ring
  · rw [if_neg hl, if_neg (by omega)]
    simp only [List.map_cons, List.map_nil]
    ring

/-- C55: if the interactions are pairs of a receive and a send, and the multiplicities of each send and
the following receive cancel, then a row of the result has the same balance of every tuple on every bus
before and after the optimisation. -/
theorem C55_balance {m m' : SymMachine F R} {execBus : ℕ}
    (h : optimizeExecBus m execBus = .ok m') {σ : R → F} (hσ : m'.Holds σ)
    (heven : Even (m.onBus execBus).length)
    (hm : ∀ s r, m.Consecutive execBus s r → s.mult.value σ + r.mult.value σ = 0)
    (id : ℕ) (payload : List F) :
    messageBalance (m'.messages σ) id payload = messageBalance (m.messages σ) id payload := by
  obtain ⟨s, -, -, h1⟩ := execBus_balance h ((C55_rows h σ).1 hσ).2 hm id payload
  rw [if_pos (Nat.even_iff.1 heven), add_zero] at h1
  exact h1.symm

/-- C55: if the last receive has no send, then the result sends the last state once too often. -/
theorem C55_odd {m m' : SymMachine F R} {execBus : ℕ}
    (h : optimizeExecBus m execBus = .ok m') {σ : R → F} (hσ : m'.Holds σ)
    (hodd : Odd (m.onBus execBus).length)
    (hm : ∀ s r, m.Consecutive execBus s r → s.mult.value σ + r.mult.value σ = 0) :
    ∃ s, (m'.onBus execBus)[1]? = some s ∧
      messageBalance (m'.messages σ) execBus (s.args.map (AlgExpr.value σ)) =
        messageBalance (m.messages σ) execBus (s.args.map (AlgExpr.value σ)) + s.mult.value σ := by
  obtain ⟨s, -, h2, -⟩ := execBus_balance h ((C55_rows h σ).1 hσ).2 hm 0 []
  refine ⟨s, h2, ?_⟩
  obtain ⟨s', -, h2', h1⟩ := execBus_balance h ((C55_rows h σ).1 hσ).2 hm execBus
    (s.args.map (AlgExpr.value σ))
  rw [h2] at h2'
  cases h2'
  rw [if_neg (by rw [Nat.odd_iff.1 hodd]; decide)] at h1
  rw [← h1]
  have : s ∈ m'.onBus execBus := List.mem_of_getElem? h2
  have hs : s.id = execBus := by simpa using (List.mem_filter.1 this).2
  simp [messageBalance, SymBus.message, hs]

end

/-! ## Block machines -/

theorem flatMap_pairs {α β : Type} {g : α → List β} : ∀ {L : List α}, (∀ x ∈ L, (g x).length = 2) →
    ∀ k : ℕ, (L.flatMap g)[2 * k]? = L[k]?.bind (fun x => (g x)[0]?) ∧
      (L.flatMap g)[2 * k + 1]? = L[k]?.bind (fun x => (g x)[1]?)
  | [], _, k => by simp
  | x :: L, h, k => by
    obtain ⟨a, b, hab⟩ := List.length_eq_two.1 (h x (by simp))
    rw [List.flatMap_cons, hab]
    cases k with
    | zero => simp [hab]
    | succ k =>
      obtain ⟨h1, h2⟩ := flatMap_pairs (fun y hy => h y (List.mem_cons_of_mem _ hy)) k
      rw [show 2 * (k + 1) = 2 * k + 2 by ring, show 2 * k + 2 + 1 = 2 * k + 1 + 2 by ring]
      simpa using ⟨h1, h2⟩

section
variable {p : ℕ} {U : Type} {f : U → ZMod p} {execBus pcBus : ℕ}

/-- C55 for the machine of a basic block, with states of a fixed number of fields: the optimisation
succeeds. A row satisfies the result exactly if it satisfies the block machine and each instruction
receives the state sent by the previous one. If the instructions send with multiplicity one, then the
balance of every tuple on every bus is unchanged. -/
theorem C55_block {is : List (InstrAir U)} {m : SymMachine (ZMod p) ℕ} {a : ColumnAllocator}
    (h : blockMachine execBus pcBus f is = .ok (m, a)) {width : ℕ}
    (hw : ∀ i ∈ is, ∀ b ∈ i.machine.bus, b.id = execBus → b.args.length = width) :
    ∃ m', optimizeExecBus m execBus = .ok m' ∧ ∀ σ : ℕ → ZMod p,
      (m'.Holds σ ↔ m.Holds σ ∧ ∀ k x y, (is.zip a.subs)[k]? = some x →
        (is.zip a.subs)[k + 1]? = some y → ∀ r s r' s',
        (x.1.machine.convert f).onBus execBus = [r, s] →
        (y.1.machine.convert f).onBus execBus = [r', s'] →
        r'.args.map (AlgExpr.value fun c => σ (y.2.getD c 0)) =
          s.args.map (AlgExpr.value fun c => σ (x.2.getD c 0))) ∧
      (m'.Holds σ → (∀ x ∈ is.zip a.subs, ∀ r s, (x.1.machine.convert f).onBus execBus = [r, s] →
          s.mult.value (fun c => σ (x.2.getD c 0)) = 1) →
        ∀ id payload,
          messageBalance (m'.messages σ) id payload = messageBalance (m.messages σ) id payload) := by
  obtain ⟨hne, hex⟩ := C58_exists.1 ⟨_, h⟩
  have hlen : a.subs.length = is.length := by
    obtain ⟨ms, h1, -⟩ := blockMachine_ok h
    exact (instructionMachines_ok h1).2.1
  have hfilt : ∀ i : InstrAir U, (i.machine.convert f).onBus execBus =
      (i.machine.bus.filter fun b => b.id = execBus).map
        fun b => ⟨b.id, b.mult.convert f, b.args.map (AlgExpr.convert f)⟩ := by
    intro i
    simp only [SymMachine.onBus, SymMachine.convert, List.filter_map]
    rfl
  have htwo : ∀ x ∈ is.zip a.subs, ((x.1.machine.convert f).onBus execBus).length = 2 := by
    intro x hx
    rw [hfilt, List.length_map]
    exact (hex x.1 (List.of_mem_zip hx).1).2.1
  have hmsg : ∀ σ : ℕ → ZMod p, (m.onBus execBus).map (SymBus.message σ) =
      (is.zip a.subs).flatMap fun x => ((x.1.machine.convert f).onBus execBus).map
        (SymBus.message fun c => σ (x.2.getD c 0)) := by
    intro σ
    have := congrArg (List.filter fun x => decide (x.1 = execBus)) (C58_block h σ).2
    rw [List.filter_flatMap, SymMachine.messages, List.filter_map] at this
    rw [show m.onBus execBus = m.bus.filter ((fun x : ℕ × ZMod p × List (ZMod p) =>
      decide (x.1 = execBus)) ∘ SymBus.message σ) from rfl, this]
    congr 1
    funext x
    rw [SymMachine.messages, List.filter_map]
    rfl
  have hpair := fun (σ : ℕ → ZMod p) (k : ℕ) => flatMap_pairs (L := is.zip a.subs)
    (g := fun x => ((x.1.machine.convert f).onBus execBus).map
        (SymBus.message fun c => σ (x.2.getD c 0)))
    (by intro x hx; rw [List.length_map]; exact htwo x hx) k
  have hlenBus : (m.onBus execBus).length = 2 * is.length := by
    have := congrArg List.length (hmsg fun _ => 0)
    rw [List.length_map, List.length_flatMap] at this
    rw [this, List.map_congr_left (g := fun _ => 2)]
    · simp [hlen, Nat.mul_comm]
    · intro x hx
      rw [List.length_map]
      exact htwo x hx
  have hcons : ∀ {s r : SymBus (ZMod p) ℕ}, m.Consecutive execBus s r → ∃ k x y s0 s' r' t,
      (is.zip a.subs)[k]? = some x ∧ (is.zip a.subs)[k + 1]? = some y ∧
      (x.1.machine.convert f).onBus execBus = [s0, s'] ∧
      (y.1.machine.convert f).onBus execBus = [r', t] ∧ ∀ σ : ℕ → ZMod p,
      s.message σ = s'.message (fun c => σ (x.2.getD c 0)) ∧
      r.message σ = r'.message (fun c => σ (y.2.getD c 0)) := by
    rintro s r ⟨k, hs, hr⟩
    have hk2 : 2 * k + 2 < (m.onBus execBus).length := by
      by_contra hlt
      rw [List.getElem?_eq_none (by omega)] at hr
      cases hr
    have hz : (is.zip a.subs).length = is.length := by simp [hlen]
    have hx : k < (is.zip a.subs).length := by omega
    have hy : k + 1 < (is.zip a.subs).length := by omega
    obtain ⟨s0, s', e1⟩ := List.length_eq_two.1 (htwo _ (List.getElem_mem hx))
    obtain ⟨r', t, e2⟩ := List.length_eq_two.1 (htwo _ (List.getElem_mem hy))
    refine ⟨k, _, _, s0, s', r', t, List.getElem?_eq_getElem hx, List.getElem?_eq_getElem hy,
      e1, e2, fun σ => ⟨?_, ?_⟩⟩
    · have := (hpair σ k).2
      rw [← hmsg, List.getElem?_map, hs, List.getElem?_eq_getElem hx, Option.bind_some,
        e1] at this
      exact Option.some.inj this
    · have := (hpair σ (k + 1)).1
      rw [← hmsg, List.getElem?_map, show 2 * (k + 1) = 2 * k + 2 by ring, hr,
        List.getElem?_eq_getElem hy, Option.bind_some, e2] at this
      exact Option.some.inj this
  have hcons' : ∀ {k x y r s r' s'}, (is.zip a.subs)[k]? = some x →
      (is.zip a.subs)[k + 1]? = some y → (x.1.machine.convert f).onBus execBus = [r, s] →
      (y.1.machine.convert f).onBus execBus = [r', s'] →
      ∃ s1 r1, m.Consecutive execBus s1 r1 ∧ ∀ σ : ℕ → ZMod p,
        s1.message σ = s.message (fun c => σ (x.2.getD c 0)) ∧
        r1.message σ = r'.message (fun c => σ (y.2.getD c 0)) := by
    intro k x y r s r' s' hx hy e1 e2
    have hy' : k + 1 < (is.zip a.subs).length := by
      by_contra hlt
      rw [List.getElem?_eq_none (by omega)] at hy
      cases hy
    have hz : (is.zip a.subs).length = is.length := by simp [hlen]
    have b1 : 2 * k + 1 < (m.onBus execBus).length := by omega
    have b2 : 2 * k + 2 < (m.onBus execBus).length := by omega
    refine ⟨_, _, ⟨k, List.getElem?_eq_getElem b1, List.getElem?_eq_getElem b2⟩,
      fun σ => ⟨?_, ?_⟩⟩
    · have := (hpair σ k).2
      rw [← hmsg, List.getElem?_map, List.getElem?_eq_getElem b1, hx] at this
      simpa [e1] using this
    · have := (hpair σ (k + 1)).1
      rw [← hmsg, List.getElem?_map, show 2 * (k + 1) = 2 * k + 2 by ring,
        List.getElem?_eq_getElem b2, hy] at this
      simpa [e2] using this
  have hwidth : ∀ i ∈ is, ∀ b ∈ (i.machine.convert f).onBus execBus, b.args.length = width := by
    intro i hi b hb
    rw [hfilt] at hb
    obtain ⟨b0, hb0, rfl⟩ := List.mem_map.1 hb
    obtain ⟨hb1, hb2⟩ := List.mem_filter.1 hb0
    simpa using hw i hi b0 hb1 (by simpa using hb2)
  obtain ⟨m', hm'⟩ := (C55_defined (m := m) (execBus := execBus)).2 (by
    refine ⟨?_, fun s r hsr => ?_⟩
    · rw [hlenBus]
      have := List.length_pos_iff.2 hne
      omega
    · obtain ⟨k, x, y, s0, s', r', t, hx, hy, e1, e2, e3⟩ := hcons hsr
      obtain ⟨e4, e5⟩ := e3 fun _ => 0
      have l1 := congrArg (fun z : ℕ × ZMod p × List (ZMod p) => z.2.2.length) e4
      have l2 := congrArg (fun z : ℕ × ZMod p × List (ZMod p) => z.2.2.length) e5
      simp only [SymBus.message, List.length_map] at l1 l2
      rw [l1, l2, hwidth x.1 (List.of_mem_zip (List.mem_of_getElem? hx)).1 s' (by simp [e1]),
        hwidth y.1 (List.of_mem_zip (List.mem_of_getElem? hy)).1 r' (by simp [e2])])
  refine ⟨m', hm', fun σ => ⟨?_, ?_⟩⟩
  · rw [C55_rows hm' σ]
    refine and_congr Iff.rfl ⟨?_, ?_⟩
    · intro hc k x y hx hy r s r' s' e1 e2
      obtain ⟨s1, r1, hsr, he⟩ := hcons' hx hy e1 e2
      have := hc s1 r1 hsr
      have e3 := congrArg (fun z : ℕ × ZMod p × List (ZMod p) => z.2.2) (he σ).1
      have e4 := congrArg (fun z : ℕ × ZMod p × List (ZMod p) => z.2.2) (he σ).2
      simp only [SymBus.message] at e3 e4
      rw [← e3, ← e4, this]
    · intro hc s r hsr
      obtain ⟨k, x, y, s0, s', r', t, hx, hy, e1, e2, e3⟩ := hcons hsr
      have e4 := congrArg (fun z : ℕ × ZMod p × List (ZMod p) => z.2.2) (e3 σ).1
      have e5 := congrArg (fun z : ℕ × ZMod p × List (ZMod p) => z.2.2) (e3 σ).2
      simp only [SymBus.message] at e4 e5
      rw [e4, e5]
      exact hc k x y hx hy _ _ _ _ e1 e2
  · intro hσ hmult
    refine C55_balance hm' hσ (by rw [hlenBus]; exact even_two_mul _) ?_
    intro s r hsr
    obtain ⟨k, x, y, s0, s', r', t, hx, hy, e1, e2, e3⟩ := hcons hsr
    have e4 := congrArg (fun z : ℕ × ZMod p × List (ZMod p) => z.2.1) (e3 σ).1
    have e5 := congrArg (fun z : ℕ × ZMod p × List (ZMod p) => z.2.1) (e3 σ).2
    simp only [SymBus.message] at e4 e5
    have h1 := ((C58_block h σ).1.1 ((C55_rows hm' σ).1 hσ).1 y (List.mem_of_getElem? hy)).2.1 r' t e2
    rw [e4, e5, hmult x (List.mem_of_getElem? hx) _ _ e1, h1]
    ring

end

/-! A sample: the block of two instructions of C58. -/

/-- The hypotheses of `C55_block` are met, and the row of the sample of C58 with consecutive program
counters satisfies the result. -/
example : ∃ m a m', blockSample = .ok (m, a) ∧ optimizeExecBus m 0 = .ok m' ∧
    m'.Holds (fun c => ([4, 3, 1, 8, 7, 1] : List (ZMod 17)).getD c 0) ∧
    (m'.onBus 0).length = 2 ∧ m'.bus.length = 4 := by
  have h : (blockSample.toOption.bind fun r => (optimizeExecBus r.1 0).toOption.map fun m' =>
      decide ((∀ e ∈ m'.constraints,
        e.value (fun c => ([4, 3, 1, 8, 7, 1] : List (ZMod 17)).getD c 0) = 0) ∧
        (m'.onBus 0).length = 2 ∧ m'.bus.length = 4)) = some true := by decide +kernel
  cases h1 : blockSample with
  | error e => rw [h1] at h; cases h
  | ok r =>
    rw [h1] at h
    cases h2 : optimizeExecBus r.1 0 with
    | error e => simp [Except.toOption, h2] at h
    | ok m' =>
      simp only [Except.toOption, h2, Option.bind_some, Option.map_some, Option.some.injEq,
        decide_eq_true_eq] at h
      exact ⟨r.1, r.2, m', rfl, h2, h⟩

example : ∀ i ∈ [instrSample 3, instrSample 7], ∀ b ∈ i.machine.bus, b.id = 0 → b.args.length = 1 := by
  decide

/-- A machine that receives twice and sends once: the result is not balanced as the machine. -/
def oddSample : SymMachine (ZMod 17) ℕ :=
  ⟨[], [⟨0, .number (-1), [.number 1]⟩, ⟨0, .number 1, [.number 2]⟩, ⟨0, .number (-1), [.number 2]⟩], []⟩

example : (optimizeExecBus oddSample 0).toOption.map (fun m' =>
    decide ((∀ e ∈ m'.constraints, e.value (fun _ => 0) = 0) ∧
    messageBalance (m'.messages fun _ => 0) 0 [2] = 1 ∧
    messageBalance (oddSample.messages fun _ => 0) 0 [2] = 0)) = some true := by decide +kernel

end Verif
