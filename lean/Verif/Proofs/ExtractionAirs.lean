import Verif.Proofs.Extraction

set_option linter.unusedSectionVars false
set_option linter.unusedSimpArgs false

namespace Verif

section
variable {F : Type}

theorem airOfExecutor_ok {v : VmInventory F} {op e : ℕ} {a : VmAir F} (hl : v.instructionLookup op = some e) :
    v.airOfExecutor e = .ok a ↔ v.AirOf op a := by
  unfold VmInventory.airOfExecutor VmInventory.AirOf
  constructor
  · intro h
    split at h
    · exact absurd h (by simp)
    · rename_i i hi
      split at h
      · exact absurd h (by simp)
      · rename_i b hb
        simp only [Except.ok.injEq] at h
        subst h
        exact ⟨e, i, hl, hi, hb⟩
  · rintro ⟨e', i, hl', hi, ha⟩
    rw [hl] at hl'
    simp only [Option.some.injEq] at hl'
    subst hl'
    simp [hi, ha]

theorem AirOf_unique {v : VmInventory F} {op : ℕ} {a b : VmAir F} (ha : v.AirOf op a) (hb : v.AirOf op b) : a = b := by
  obtain ⟨e, i, h1, h2, h3⟩ := ha
  obtain ⟨e', i', h1', h2', h3'⟩ := hb
  rw [h1] at h1'
  simp only [Option.some.injEq] at h1'
  subst h1'
  rw [h2] at h2'
  simp only [Option.some.injEq] at h2'
  subst h2'
  rw [h3] at h3'
  simpa using h3'

/-- The state after a prefix of the allowed opcodes. -/
structure AirsState (v : VmInventory F) (allowed : List ℕ) (bound : ℕ) (o : OriginalAirs F) : Prop where
  bound : o.degreeBound = bound
  opcodes : o.opcodes = allowed.filter fun op => (v.instructionLookup op).isSome
  nodup : o.opcodes.Nodup
  airs : ∀ op ∈ o.opcodes, ∃ a, v.AirOf op a ∧ o.opcodeToAir op = some a.name
  others : ∀ op, op ∉ o.opcodes → o.opcodeToAir op = none
  machines : ∀ op ∈ o.opcodes, ∀ a, v.AirOf op a →
    ∃ b m, v.FirstNamed allowed a.name b ∧ extractMachine b = .ok m ∧ o.airNameToMachine a.name = some m
  names : ∀ name, (o.airNameToMachine name).isSome → ∃ op ∈ o.opcodes, ∃ a, v.AirOf op a ∧ a.name = name

theorem FirstNamed_append {v : VmInventory F} {l : List ℕ} {name : String} {b : VmAir F} (op : ℕ)
    (h : v.FirstNamed l name b) : v.FirstNamed (l ++ [op]) name b := by
  obtain ⟨before, x, after, rfl, h⟩ := h
  exact ⟨before, x, after ++ [op], by simp, h⟩

theorem AirOf_lookup {v : VmInventory F} {op : ℕ} {a : VmAir F} (h : v.AirOf op a) :
    (v.instructionLookup op).isSome := by
  obtain ⟨e, i, h1, _⟩ := h
  simp [h1]

theorem AirsState.step {v : VmInventory F} {l : List ℕ} {bound : ℕ} {o o' : OriginalAirs F} {op : ℕ}
    (hs : AirsState v l bound o) (h : addAllowed v o op = .ok o') : AirsState v (l ++ [op]) bound o' := by
  unfold addAllowed at h
  cases hl : v.instructionLookup op with
  | none =>
    simp only [hl, Except.ok.injEq] at h
    subst h
    refine ⟨hs.bound, ?_, hs.nodup, hs.airs, hs.others, ?_, hs.names⟩
    · rw [List.filter_append, hs.opcodes]
      simp [hl]
    · intro x hx a ha
      obtain ⟨b, m, h1, h2, h3⟩ := hs.machines x hx a ha
      exact ⟨b, m, FirstNamed_append op h1, h2, h3⟩
  | some e =>
    simp only [hl, bind, Except.bind] at h
    cases ha : v.airOfExecutor e with
    | error x => simp [ha] at h
    | ok a =>
      simp only [ha] at h
      have haof : v.AirOf op a := (airOfExecutor_ok hl).1 ha
      unfold OriginalAirs.insertOpcode at h
      by_cases hk : (o.opcodeToAir op).isSome
      · simp [hk] at h
      · have hnew : op ∉ o.opcodes := by
          intro hmem
          obtain ⟨b, _, hb⟩ := hs.airs op hmem
          simp [hb] at hk
        simp only [hk, if_false, Bool.false_eq_true] at h
        have hop : ∀ {o1 : OriginalAirs F}, o1.opcodes = o.opcodes → (o1.addOpcode op a.name).opcodes =
            (l ++ [op]).filter fun op => (v.instructionLookup op).isSome := by
          intro o1 h1
          simp [OriginalAirs.addOpcode, h1, hs.opcodes, hl]
        have hnd : (o.opcodes ++ [op]).Nodup := by
          rw [List.nodup_append]
          refine ⟨hs.nodup, by simp, ?_⟩
          intro x hx y hy
          simp only [List.mem_singleton] at hy
          subst hy
          rintro rfl
          exact hnew hx
        have hairs : ∀ x ∈ o.opcodes ++ [op], ∃ b, v.AirOf x b ∧
            Function.update o.opcodeToAir op (some a.name) x = some b.name := by
          intro x hx
          by_cases hxo : x = op
          · subst hxo
            exact ⟨a, haof, by simp⟩
          · have hx' : x ∈ o.opcodes := by simpa [hxo] using hx
            obtain ⟨b, hb, hb'⟩ := hs.airs x hx'
            exact ⟨b, hb, by simp [Function.update, hxo, hb']⟩
        have hoth : ∀ x, x ∉ o.opcodes ++ [op] → Function.update o.opcodeToAir op (some a.name) x = none := by
          intro x hx
          simp only [List.mem_append, List.mem_singleton, not_or] at hx
          simp [Function.update, hx.2, hs.others x hx.1]
        by_cases hm : (o.airNameToMachine a.name).isSome
        · simp only [hm, if_true, Except.ok.injEq] at h
          subst h
          refine ⟨hs.bound, hop rfl, hnd, hairs, hoth, ?_, ?_⟩
          · intro x hx b hb
            simp only [OriginalAirs.addOpcode, List.mem_append, List.mem_singleton] at hx
            rcases hx with hx | rfl
            · obtain ⟨c, m, h1, h2, h3⟩ := hs.machines x hx b hb
              exact ⟨c, m, FirstNamed_append op h1, h2, h3⟩
            · have := AirOf_unique haof hb
              subst this
              obtain ⟨y, hy, c, hc, hcn⟩ := hs.names a.name hm
              obtain ⟨d, m, h1, h2, h3⟩ := hs.machines y hy c hc
              rw [hcn] at h1 h3
              exact ⟨d, m, FirstNamed_append x h1, h2, h3⟩
          · intro name hname
            obtain ⟨y, hy, c, hc⟩ := hs.names name hname
            exact ⟨y, by simp [OriginalAirs.addOpcode, hy], c, hc⟩
        · simp only [hm, if_false, Bool.false_eq_true] at h
          cases hx : extractMachine a with
          | error y => simp [hx] at h
          | ok m =>
            simp only [hx, pure, Except.pure, bind, Except.bind, Except.ok.injEq] at h
            subst h
            have hfresh : ∀ x ∈ l, ∀ b, v.AirOf x b → b.name ≠ a.name := by
              intro x hx b hb hbn
              have hxo : x ∈ o.opcodes := by
                rw [hs.opcodes]
                exact List.mem_filter.2 ⟨hx, AirOf_lookup hb⟩
              obtain ⟨c, m', _, _, h3⟩ := hs.machines x hxo b hb
              rw [hbn] at h3
              simp [h3] at hm
            refine ⟨hs.bound, hop rfl, hnd, hairs, hoth, ?_, ?_⟩
            · intro x hx' b hb
              simp only [OriginalAirs.addOpcode, List.mem_append, List.mem_singleton] at hx' ⊢
              rcases hx' with hx' | rfl
              · have hxl : x ∈ l := by
                  rw [hs.opcodes] at hx'
                  exact (List.mem_filter.1 hx').1
                obtain ⟨c, m', h1, h2, h3⟩ := hs.machines x hx' b hb
                refine ⟨c, m', FirstNamed_append op h1, h2, ?_⟩
                simp [Function.update, hfresh x hxl b hb, h3]
              · have := AirOf_unique haof hb
                subst this
                exact ⟨a, m, ⟨l, x, [], rfl, haof, rfl, hfresh⟩, hx, by simp⟩
            · intro name hname
              by_cases hn : name = a.name
              · subst hn
                exact ⟨op, by simp [OriginalAirs.addOpcode], a, haof, rfl⟩
              · simp only [OriginalAirs.addOpcode, Function.update, hn] at hname
                obtain ⟨y, hy, c, hc⟩ := hs.names name (by simpa using hname)
                exact ⟨y, by simp [OriginalAirs.addOpcode, hy], c, hc⟩

theorem AirsState.fold {v : VmInventory F} {bound : ℕ} : ∀ {rest l : List ℕ} {o o' : OriginalAirs F},
    AirsState v l bound o → rest.foldlM (addAllowed v) o = .ok o' → AirsState v (l ++ rest) bound o'
  | [], l, o, o', hs, h => by
    simp only [List.foldlM_nil, pure, Except.pure, Except.ok.injEq] at h
    subst h
    simpa using hs
  | op :: rest, l, o, o', hs, h => by
    rw [List.foldlM_cons] at h
    simp only [bind, Except.bind] at h
    cases ho : addAllowed v o op with
    | error e => simp [ho] at h
    | ok o1 =>
      simp only [ho] at h
      have := AirsState.fold (hs.step ho) h
      rwa [List.append_assoc] at this

theorem AirsState.init (v : VmInventory F) (bound : ℕ) : AirsState v [] bound (OriginalAirs.withDegreeBound bound) := by
  refine ⟨rfl, rfl, List.nodup_nil, ?_, fun _ _ => rfl, ?_, ?_⟩
  · intro op hop; cases hop
  · intro op hop; cases hop
  · intro name hname; simp [OriginalAirs.withDegreeBound] at hname

theorem airs_state {v : VmInventory F} {bound : ℕ} {allowed : List ℕ} {o : OriginalAirs F}
    (h : v.airs bound allowed = .ok o) : AirsState v allowed bound o := by
  simpa using AirsState.fold (AirsState.init v bound) h

/-- The extraction does not fail if all opcodes are different and all AIRs can be extracted. -/
theorem airs_total {v : VmInventory F} (bound : ℕ) {allowed : List ℕ}
    (hnd : (allowed.filter fun op => (v.instructionLookup op).isSome).Nodup)
    (hair : ∀ op ∈ allowed, (v.instructionLookup op).isSome → ∃ a, v.AirOf op a ∧ a.Supported) :
    ∃ o, v.airs bound allowed = .ok o := by
  have key : ∀ (rest l : List ℕ) (o : OriginalAirs F), allowed = l ++ rest → AirsState v l bound o →
      ∃ o', rest.foldlM (addAllowed v) o = .ok o' := by
    intro rest
    induction rest with
    | nil => intro l o _ _; exact ⟨o, rfl⟩
    | cons op rest ih =>
      intro l o hl hs
      have hstep : ∃ o1, addAllowed v o op = .ok o1 := by
        unfold addAllowed
        cases hlk : v.instructionLookup op with
        | none => exact ⟨o, rfl⟩
        | some e =>
          obtain ⟨a, ha, hsup⟩ := hair op (by simp [hl]) (by simp [hlk])
          have hae := (airOfExecutor_ok hlk).2 ha
          simp only [hae, bind, Except.bind, OriginalAirs.insertOpcode]
          have hnew : op ∉ o.opcodes := by
            rw [hs.opcodes]
            rw [hl, List.filter_append, List.filter_cons_of_pos (by simp [hlk]), List.nodup_append] at hnd
            intro hmem
            exact hnd.2.2 op hmem op (by simp) rfl
          rw [hs.others op hnew]
          simp only [Option.isSome_none, Bool.false_eq_true, if_false]
          by_cases hm : (o.airNameToMachine a.name).isSome
          · exact ⟨_, by simp only [hm, if_true]; rfl⟩
          · obtain ⟨m, hmm⟩ := extractMachine_total hsup
            exact ⟨_, by simp only [hm, if_false, hmm, pure, Except.pure, Bool.false_eq_true]; rfl⟩
      obtain ⟨o1, h1⟩ := hstep
      obtain ⟨o', h'⟩ := ih (l ++ [op]) o1 (by simp [hl]) (hs.step h1)
      refine ⟨o', ?_⟩
      rw [List.foldlM_cons]
      simp only [bind, Except.bind, h1, h']
  exact key allowed [] _ rfl (AirsState.init v bound)

/-! ## The map of the buses -/

theorem insertPair_inv {k : ℕ} {t : BusType} : ∀ {m m' : BusMap}, BusMap.insertPair k t m = .ok m' →
    m.Pairwise (fun a b => a.1 < b.1) → m'.Pairwise (fun a b => a.1 < b.1) ∧
      (∀ x, x ∈ m' ↔ x = (k, t) ∨ x ∈ m)
  | [], m', h, _ => by
    simp only [BusMap.insertPair, Except.ok.injEq] at h
    subst h
    simp
  | (k', t') :: m, m', h, hp => by
    rw [List.pairwise_cons] at hp
    simp only [BusMap.insertPair] at h
    split at h
    · rename_i hlt
      simp only [Except.ok.injEq] at h
      subst h
      refine ⟨?_, by simp⟩
      rw [List.pairwise_cons, List.pairwise_cons]
      refine ⟨?_, hp⟩
      intro x hx
      rcases List.mem_cons.1 hx with rfl | hx
      · exact hlt
      · exact lt_trans hlt (hp.1 x hx)
    · split at h
      · rename_i hk
        split at h
        · rename_i ht
          simp only [Except.ok.injEq] at h
          subst h hk ht
          refine ⟨List.pairwise_cons.2 hp, by simp⟩
        · exact absurd h (by simp)
      · rename_i h1 h2
        simp only [bind, Except.bind, pure, Except.pure] at h
        cases hr : BusMap.insertPair k t m with
        | error e => simp [hr] at h
        | ok r =>
          simp only [hr, Except.ok.injEq] at h
          subst h
          obtain ⟨i1, i2⟩ := insertPair_inv hr hp.2
          refine ⟨?_, ?_⟩
          · rw [List.pairwise_cons]
            refine ⟨?_, i1⟩
            intro x hx
            rcases (i2 x).1 hx with rfl | hx
            · show k' < k
              omega
            · exact hp.1 x hx
          · intro x
            simp only [List.mem_cons, i2 x]
            tauto

theorem insertPair_total {k : ℕ} {t : BusType} : ∀ {m : BusMap}, (∀ t', (k, t') ∈ m → t' = t) →
    ∃ m', BusMap.insertPair k t m = .ok m'
  | [], _ => ⟨_, rfl⟩
  | (k', t') :: m, h => by
    simp only [BusMap.insertPair]
    split
    · exact ⟨_, rfl⟩
    · split
      · rename_i hk
        subst hk
        have := h t' (by simp)
        simp [this]
      · obtain ⟨m', hm⟩ := insertPair_total (k := k) (t := t) (m := m) fun t'' ht => h t'' (by simp [ht])
        exact ⟨_, by simp only [hm, bind, Except.bind, pure, Except.pure]; rfl⟩

theorem fromPairs_inv : ∀ {pairs : List (ℕ × BusType)} {m0 m : BusMap},
    pairs.foldlM (fun m x => BusMap.insertPair x.1 x.2 m) m0 = .ok m → m0.Pairwise (fun a b => a.1 < b.1) →
    m.Pairwise (fun a b => a.1 < b.1) ∧ ∀ x, x ∈ m ↔ x ∈ pairs ∨ x ∈ m0
  | [], m0, m, h, hp => by
    simp only [List.foldlM_nil, pure, Except.pure, Except.ok.injEq] at h
    subst h
    exact ⟨hp, by simp⟩
  | y :: pairs, m0, m, h, hp => by
    rw [List.foldlM_cons] at h
    simp only [bind, Except.bind] at h
    cases h1 : BusMap.insertPair y.1 y.2 m0 with
    | error e => simp [h1] at h
    | ok m1 =>
      simp only [h1] at h
      obtain ⟨i1, i2⟩ := insertPair_inv h1 hp
      obtain ⟨j1, j2⟩ := fromPairs_inv h i1
      refine ⟨j1, ?_⟩
      intro x
      rw [j2, i2, List.mem_cons]
      tauto

theorem fromPairs_total : ∀ {pairs : List (ℕ × BusType)} {m0 : BusMap}, m0.Pairwise (fun a b => a.1 < b.1) →
    (∀ x ∈ pairs ++ m0, ∀ y ∈ pairs ++ m0, x.1 = y.1 → x.2 = y.2) →
    ∃ m, pairs.foldlM (fun m x => BusMap.insertPair x.1 x.2 m) m0 = .ok m
  | [], m0, _, _ => ⟨m0, rfl⟩
  | y :: pairs, m0, hp, h => by
    obtain ⟨m1, h1⟩ := insertPair_total (k := y.1) (t := y.2) (m := m0) fun t' ht =>
      h (y.1, t') (by simp [ht]) y (by simp) rfl
    obtain ⟨i1, i2⟩ := insertPair_inv h1 hp
    obtain ⟨m, hm⟩ := fromPairs_total (pairs := pairs) i1 (by
      have sub : ∀ z ∈ pairs ++ m1, z ∈ y :: pairs ++ m0 := by
        intro z hz
        rcases List.mem_append.1 hz with hz | hz
        · simp [hz]
        · rcases (i2 z).1 hz with rfl | hz
          · simp
          · simp [hz]
      intro a ha b hb
      exact h a (sub a ha) b (sub b hb))
    refine ⟨m, ?_⟩
    rw [List.foldlM_cons]
    simp only [bind, Except.bind, h1, hm]

theorem sorted_mapGet {k : ℕ} {t : BusType} : ∀ {m : BusMap}, m.Pairwise (fun a b => a.1 < b.1) →
    (mapGet k m = some t ↔ (k, t) ∈ m)
  | [], _ => by simp [mapGet]
  | (k', t') :: m, hp => by
    rw [List.pairwise_cons] at hp
    simp only [mapGet]
    by_cases hk : k = k'
    · subst hk
      simp only [if_true, Option.some.injEq, List.mem_cons, Prod.mk.injEq, true_and]
      constructor
      · intro h; exact .inl h.symm
      · rintro (h | h)
        · exact h.symm
        · exact absurd (hp.1 _ h) (by simp)
    · simp only [hk, if_false, List.mem_cons, Prod.mk.injEq, false_and, false_or]
      exact sorted_mapGet hp.2

end

end Verif
