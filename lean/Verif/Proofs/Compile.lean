import Verif.Spec.Compile
import Verif.Props.Selection
import Verif.Props.BasicBlocks
import Verif.Props.Superblocks

/-! # Proofs about the compilation of a program -/

set_option linter.unusedSectionVars false

namespace Verif

variable {I A : Type}

/-! ## Blocks of an execution -/

/-- All program counters in the runs are starts of blocks with several instructions. -/
def RunsOf (blocks : List (BasicBlock I)) (runs : List (List ℕ × ℕ)) : Prop :=
  ∀ x ∈ runs, ∀ pc ∈ x.1, ∃ b, blockAt blocks pc = some b ∧ 2 ≤ b.instructions.length

theorem btreeAdd_mem_key {K : Type} [LinearOrder K] {k : K} {n : ℕ} : ∀ {m : List (K × ℕ)} {x : K × ℕ},
    x ∈ btreeAdd k n m → x.1 = k ∨ ∃ y ∈ m, y.1 = x.1
  | [], x, h => by
    simp only [btreeAdd, List.mem_singleton] at h
    exact .inl (h ▸ rfl)
  | (k', n') :: t, x, h => by
    rw [btreeAdd] at h
    split_ifs at h with h1 h2
    · rcases List.mem_cons.1 h with rfl | h
      · exact .inl rfl
      · exact .inr ⟨x, h, rfl⟩
    · rcases List.mem_cons.1 h with rfl | h
      · exact .inr ⟨(k', n'), by simp, rfl⟩
      · exact .inr ⟨x, by simp [h], rfl⟩
    · rcases List.mem_cons.1 h with rfl | h
      · exact .inr ⟨(k', n'), by simp, rfl⟩
      · rcases btreeAdd_mem_key h with h | ⟨y, hy, h⟩
        · exact .inl h
        · exact .inr ⟨y, by simp [hy], h⟩

theorem RunsOf.endRun {blocks : List (BasicBlock I)} {runs : List (List ℕ × ℕ)} (h : RunsOf blocks runs)
    {current : List ℕ} (hc : ∀ pc ∈ current, ∃ b, blockAt blocks pc = some b ∧ 2 ≤ b.instructions.length) :
    RunsOf blocks (endRun runs current) := by
  intro x hx pc hpc
  rw [Verif.endRun] at hx
  split_ifs at hx
  · rcases btreeAdd_mem_key hx with h1 | ⟨y, hy, h1⟩
    · exact hc pc (h1 ▸ hpc)
    · exact h y hy pc (h1 ▸ hpc)
  · exact h x hx pc hpc

theorem detectRunsLoop_runsOf {blocks : List (BasicBlock I)} {execution : List ℕ} :
    ∀ (n pos : ℕ) (runs : List (List ℕ × ℕ)) (current : List ℕ), RunsOf blocks runs →
      (∀ pc ∈ current, ∃ b, blockAt blocks pc = some b ∧ 2 ≤ b.instructions.length) →
      ∀ r, detectRunsLoop blocks execution n pos runs current = .ok r → RunsOf blocks r
  | 0, _, _, _, _, _, r, h => by simp [detectRunsLoop] at h
  | n + 1, pos, runs, current, h1, h2, r, h => by
    rw [detectRunsLoop] at h
    split at h
    · cases h
      exact h1.endRun h2
    · next pc _ =>
      split at h
      · cases h
      · next bb hbb =>
        split_ifs at h with h3 h4
        · exact detectRunsLoop_runsOf n _ _ _ (h1.endRun h2) (by simp) r h
        · refine detectRunsLoop_runsOf n _ _ _ h1 ?_ r h
          intro q hq
          rcases List.mem_append.1 hq with hq | hq
          · exact h2 q hq
          · rw [List.mem_singleton] at hq
            subst hq
            refine ⟨bb, hbb, ?_⟩
            have : bb.instructions.length ≠ 0 := by simpa using h3
            omega

theorem blockAt_mem {blocks : List (BasicBlock I)} {pc : ℕ} {b : BasicBlock I} (h : blockAt blocks pc = some b) :
    b ∈ blocks ∧ b.startPc = pc := by
  rw [blockAt] at h
  exact ⟨List.mem_reverse.1 (List.mem_of_find?_eq_some h), by simpa using List.find?_some h⟩

theorem mapM_blockAt_forall {blocks : List (BasicBlock I)} : ∀ {pcs : List ℕ} {sb : List (BasicBlock I)},
    pcs.mapM (blockAt blocks) = some sb → List.Forall₂ (fun pc b => blockAt blocks pc = some b) pcs sb
  | [], sb, h => by
    simp only [List.mapM_nil, Option.pure_def, Option.some.injEq] at h
    subst h
    exact .nil
  | pc :: pcs, sb, h => by
    simp only [List.mapM_cons, Option.bind_eq_bind, Option.bind_eq_some_iff, Option.pure_def, Option.some.injEq] at h
    obtain ⟨b, hb, sb', hsb, rfl⟩ := h
    exact .cons hb (mapM_blockAt_forall hsb)

theorem buildSuperblocks_from {cfg : SuperblockConfig} {blocks : List (BasicBlock I)} :
    ∀ {found : List (List ℕ × ℕ)} {r : List (List (BasicBlock I) × ℕ)}, buildSuperblocks cfg blocks found = .ok r →
      (r.map fun x => x.1.map (·.startPc)).Sublist (found.map Prod.fst) ∧
      ∀ x ∈ r, ∃ y ∈ found, y.1.mapM (blockAt blocks) = some x.1
  | [], r, h => by
    simp only [buildSuperblocks, Except.ok.injEq] at h
    subst h
    simp
  | (pcs, count) :: t, r, h => by
    rw [buildSuperblocks] at h
    split at h
    · cases h
    · next block hb =>
      by_cases h0 : block.isEmpty = true
      · rw [if_pos h0] at h
        cases h
      rw [if_neg h0] at h
      cases ht : buildSuperblocks cfg blocks t with
      | error e =>
        rw [ht] at h
        cases h
      | ok rest =>
      obtain ⟨ih1, ih2⟩ := buildSuperblocks_from ht
      have skipped : (rest.map fun x => x.1.map (·.startPc)).Sublist (((pcs, count) :: t).map Prod.fst) ∧
          ∀ x ∈ rest, ∃ y ∈ (pcs, count) :: t, y.1.mapM (blockAt blocks) = some x.1 :=
        ⟨ih1.trans (List.sublist_cons_self _ _), fun x hx => by
          obtain ⟨y, hy, h3⟩ := ih2 x hx
          exact ⟨y, by simp [hy], h3⟩⟩
      rw [ht] at h
      simp only [bind, Except.bind, pure, Except.pure] at h
      split_ifs at h with h1 h2
      · cases h
        exact skipped
      · cases h
        exact skipped
      cases h
      refine ⟨?_, ?_⟩
      · rw [List.map_cons, List.map_cons]
        have : block.map (·.startPc) = pcs := by
          have := mapM_blockAt_forall hb
          clear hb h0 h2 h1 skipped
          induction this with
          | nil => rfl
          | cons h _ ih => rw [List.map_cons, ih, (blockAt_mem h).2]
        rw [this]
        exact ih1.cons_cons _
      · intro x hx
        rcases List.mem_cons.1 hx with rfl | hx
        · exact ⟨(pcs, count), by simp, hb⟩
        · obtain ⟨y, hy, h3⟩ := ih2 x hx
          exact ⟨y, by simp [hy], h3⟩

/-- What is known about the blocks for which precompiles are generated. -/
structure GoodBlocks (maxCount : ℕ) (blocks : List (BasicBlock I)) (r : List (List (BasicBlock I) × ℕ)) : Prop where
  some_block : ∀ x ∈ r, x.1 ≠ []
  few : ∀ x ∈ r, x.1.length ≤ maxCount
  member : ∀ x ∈ r, ∀ b ∈ x.1, b ∈ blocks ∧ 2 ≤ b.instructions.length
  distinct : (r.map fun x => x.1.map (·.startPc)).Nodup

theorem detectSuperblocks_good {cfg : SuperblockConfig} {execution : List ℕ} {blocks : List (BasicBlock I)}
    {r : ExecutionBlocks I} (h : DetectSuperblocks cfg execution blocks r) :
    GoodBlocks cfg.superblockMaxBbCount blocks r.1 := by
  obtain ⟨found, h1, h2, h3⟩ := h
  have hr := detectRunsLoop_runsOf _ _ _ _ (by simp [RunsOf]) (by simp) _ h1
  obtain ⟨h4, h5⟩ := C44_execution h2
  obtain ⟨h6, h7⟩ := buildSuperblocks_from h3
  have key : ∀ x ∈ r.1, x.1 ≠ [] ∧ x.1.length ≤ cfg.superblockMaxBbCount ∧
      ∀ b ∈ x.1, b ∈ blocks ∧ 2 ≤ b.instructions.length := by
    intro x hx
    obtain ⟨⟨q, n⟩, hy, h8⟩ := h7 x hx
    obtain ⟨h9, h10, ⟨run, hrun, hin⟩, -⟩ := (h5 q n).1 hy
    have hf := mapM_blockAt_forall h8
    have hl := hf.length_eq
    refine ⟨?_, hl ▸ h10, ?_⟩
    · intro h0
      rw [h0] at hl
      exact h9 (List.length_eq_zero_iff.1 (by simpa using hl))
    · intro b hb
      obtain ⟨i, hi, rfl⟩ := List.mem_iff_getElem.1 hb
      have hb' := (List.forall₂_iff_get.1 hf).2 i (hl ▸ hi) hi
      obtain ⟨b', h11, h12⟩ := hr run hrun (q[i]'(hl ▸ hi)) (hin.subset (List.getElem_mem _))
      simp only [List.get_eq_getElem] at hb'
      rw [hb'] at h11
      cases h11
      exact ⟨(blockAt_mem hb').1, h12⟩
  exact ⟨fun x hx => (key x hx).1, fun x hx => (key x hx).2.1, fun x hx => (key x hx).2.2,
    (h4.imp fun h => ne_of_lt h).sublist h6⟩

theorem blocksWithoutPgo_good {blocks : List (BasicBlock I)} (hd : (blocks.map (·.startPc)).Nodup) :
    GoodBlocks 1 blocks (blocksWithoutPgo blocks).1 := by
  have key : ∀ x ∈ (blocksWithoutPgo blocks).1, ∃ b ∈ blocks, x.1 = [b] ∧ 2 ≤ b.instructions.length := by
    intro x hx
    simp only [blocksWithoutPgo, List.mem_map, List.mem_filter, decide_eq_true_eq] at hx
    obtain ⟨sb, ⟨⟨b, hb, rfl⟩, h⟩, rfl⟩ := hx
    refine ⟨b, hb, rfl, ?_⟩
    have : 1 < b.instructions.length := by simpa using h
    omega
  refine ⟨?_, ?_, ?_, ?_⟩
  · intro x hx
    obtain ⟨b, -, h, -⟩ := key x hx
    simp [h]
  · intro x hx
    obtain ⟨b, -, h, -⟩ := key x hx
    simp [h]
  · intro x hx b' hb'
    obtain ⟨b, hb, h, h2⟩ := key x hx
    rw [h, List.mem_singleton] at hb'
    subst hb'
    exact ⟨hb, h2⟩
  · rw [blocksWithoutPgo, List.map_map]
    have : (((blocks.map fun b => [b]).filter fun sb => (sb.flatMap (·.instructions)).length > 1).map
        ((fun x : List (BasicBlock I) × ℕ => x.1.map (·.startPc)) ∘ fun sb => (sb, 0))).Sublist
        ((blocks.map (·.startPc)).map fun pc => [pc]) := by
      rw [show (blocks.map (·.startPc)).map (fun pc => [pc]) = (blocks.map fun b => [b]).map
        ((fun x : List (BasicBlock I) × ℕ => x.1.map (·.startPc)) ∘ fun sb => (sb, 0)) by
          simp [List.map_map, Function.comp_def]]
      exact List.filter_sublist.map _
    refine List.Nodup.sublist this (hd.map fun a b h => ?_)
    simpa using h

theorem filterBlocks_good {cfg : CompileConfig} {profile : Option (List ℕ)} {blocks : List (BasicBlock I)}
    {r : ExecutionBlocks I} (hd : (blocks.map (·.startPc)).Nodup) (h : FilterBlocks cfg profile blocks r) :
    GoodBlocks (max 1 cfg.superblocks.superblockMaxBbCount) blocks r.1 := by
  cases profile with
  | none =>
    rw [FilterBlocks] at h
    subst h
    have := blocksWithoutPgo_good hd
    exact ⟨this.some_block, fun x hx => le_trans (this.few x hx) (le_max_left _ _), this.member, this.distinct⟩
  | some pcs =>
    have := detectSuperblocks_good h
    exact ⟨this.some_block, fun x hx => le_trans (this.few x hx) (le_max_right _ _), this.member, this.distinct⟩

/-! ## Selection -/

/-- The precompiles are generated from different elements of the list. -/
def PickedFrom (built : List (BasicBlock I) → Option A → Prop) (blocks : List (List (BasicBlock I) × ℕ))
    (as : List A) : Prop :=
  ∃ picks : List (List (BasicBlock I)), List.Forall₂ (fun b a => built b (some a)) picks as ∧
    (∀ b ∈ picks, ∃ x ∈ blocks, x.1 = b) ∧ (picks.map fun b => b.map (·.startPc)).Nodup

theorem sortBlocks_ok {value : List (BasicBlock I) × ℕ → ℕ} {blocks : List (List (BasicBlock I) × ℕ)}
    {sorted : List (List (BasicBlock I))} (h : sortBlocks value blocks = .ok sorted) :
    sorted = (blocks.mergeSort fun a b => decide (value b ≤ value a)).map Prod.fst ∧
      ∀ x ∈ blocks, x.1.length = 1 := by
  rw [sortBlocks] at h
  have key : ∀ (l : List (List (BasicBlock I) × ℕ)) (s : List (List (BasicBlock I))),
      l.mapM (fun x => if x.1.length = 1 then (.ok x.1 : Except Panic _) else .error .assertion) = .ok s →
      s = l.map Prod.fst ∧ ∀ x ∈ l, x.1.length = 1 := by
    intro l
    induction l with
    | nil =>
      intro s hs
      simp only [List.mapM_nil, pure, Except.pure, Except.ok.injEq] at hs
      subst hs
      simp
    | cons x l ih =>
      intro s hs
      simp only [List.mapM_cons, bind, Except.bind, pure, Except.pure] at hs
      by_cases h1 : x.1.length = 1
      · rw [if_pos h1] at hs
        simp only at hs
        cases hv : l.mapM (fun x => if x.1.length = 1 then (.ok x.1 : Except Panic _) else .error .assertion) with
        | error e =>
          rw [hv] at hs
          cases hs
        | ok v =>
        rw [hv] at hs
        cases hs
        obtain ⟨rfl, h2⟩ := ih v hv
        refine ⟨rfl, ?_⟩
        intro y hy
        rcases List.mem_cons.1 hy with rfl | hy
        · exact h1
        · exact h2 y hy
      · rw [if_neg h1] at hs
        cases hs
  obtain ⟨h1, h2⟩ := key _ _ h
  exact ⟨h1, fun x hx => h2 x (List.mem_mergeSort.2 hx)⟩

theorem sortBlocks_of_basic {value : List (BasicBlock I) × ℕ → ℕ} {blocks : List (List (BasicBlock I) × ℕ)}
    (h : ∀ x ∈ blocks, x.1.length = 1) :
    sortBlocks value blocks = .ok ((blocks.mergeSort fun a b => decide (value b ≤ value a)).map Prod.fst) := by
  rw [sortBlocks]
  have key : ∀ (l : List (List (BasicBlock I) × ℕ)), (∀ x ∈ l, x.1.length = 1) →
      l.mapM (fun x => if x.1.length = 1 then (.ok x.1 : Except Panic _) else .error .assertion) =
      .ok (l.map Prod.fst) := by
    intro l
    induction l with
    | nil => intro _; rfl
    | cons x l ih =>
      intro hl
      rw [List.mapM_cons, if_pos (hl x (by simp)), ih fun y hy => hl y (by simp [hy])]
      rfl
  exact key _ fun x hx => h x (List.mem_mergeSort.1 hx)

theorem createForAll_picked {built : List (BasicBlock I) → Option A → Prop} {cfg : CompileConfig} {maxCount : ℕ}
    {bs : List (BasicBlock I)} {blocks : List (List (BasicBlock I) × ℕ)} (hg : GoodBlocks maxCount bs blocks)
    {value : List (BasicBlock I) × ℕ → ℕ} {sorted : List (List (BasicBlock I))}
    (hs : sortBlocks value blocks = .ok sorted) {as : List A} (h : CreateForAll built cfg sorted (.ok as)) :
    PickedFrom built blocks as ∧ as.length ≤ cfg.autoprecompiles := by
  obtain ⟨rfl, -⟩ := sortBlocks_ok hs
  rw [CreateForAll] at h
  refine ⟨⟨_, h, ?_, ?_⟩, ?_⟩
  · intro b hb
    obtain ⟨x, hx, rfl⟩ := List.mem_map.1 (List.mem_of_mem_drop (List.mem_of_mem_take hb))
    exact ⟨x, List.mem_mergeSort.1 hx, rfl⟩
  · have hsub := ((List.take_sublist cfg.autoprecompiles _).trans (List.drop_sublist cfg.skipAutoprecompiles
      ((blocks.mergeSort fun a b => decide (value b ≤ value a)).map Prod.fst))).map fun b => b.map (·.startPc)
    refine List.Nodup.sublist hsub ?_
    rw [List.map_map]
    exact ((List.mergeSort_perm blocks _).map _).nodup_iff.2 hg.distinct
  · rw [← h.length_eq, List.length_take]
    exact min_le_left _ _

theorem takeApcs_ok : ∀ {is : List ℕ} {apcs : List (Option A)}, is.Nodup →
    (∀ i ∈ is, ∃ a, apcs[i]? = some (some a)) →
    ∃ as, takeApcs apcs is = .ok as ∧ List.Forall₂ (fun i a => apcs[i]? = some (some a)) is as
  | [], apcs, _, _ => ⟨[], rfl, .nil⟩
  | i :: is, apcs, hn, h => by
    obtain ⟨a, ha⟩ := h i (by simp)
    obtain ⟨hni, hn'⟩ := List.nodup_cons.1 hn
    have hset : ∀ j ∈ is, (apcs.set i none)[j]? = apcs[j]? := by
      intro j hj
      rw [List.getElem?_set_ne]
      rintro rfl
      exact hni hj
    obtain ⟨as, h1, h2⟩ := takeApcs_ok (apcs := apcs.set i none) hn' fun j hj => by
      rw [hset j hj]
      exact h j (by simp [hj])
    refine ⟨a :: as, ?_, .cons ha ?_⟩
    · rw [takeApcs, ha]
      simp only [h1, bind, Except.bind, pure, Except.pure]
    · refine List.Forall₂.imp (R := fun j b => j ∈ is ∧ (apcs.set i none)[j]? = some (some b)) ?_ ?_
      · intro j b hb
        rw [← hset j hb.1]
        exact hb.2
      · rw [List.forall₂_iff_get] at h2 ⊢
        exact ⟨h2.1, fun k hk hk' => ⟨List.getElem_mem _, h2.2 k hk hk'⟩⟩

/-- The kept results with their blocks. -/
def keptApcs (results : List (Option A)) (blocks : List (List (BasicBlock I) × ℕ)) :
    List (A × (List (BasicBlock I) × ℕ)) :=
  (results.zip blocks).filterMap fun x => x.1.map fun a => (a, x.2)

theorem keptApcs_facts {built : List (BasicBlock I) → Option A → Prop} :
    ∀ {blocks : List (List (BasicBlock I) × ℕ)} {results : List (Option A)},
      List.Forall₂ (fun x a => built x.1 a) blocks results →
      (keptApcs results blocks).map (fun x => some x.1) = results.filterMap (fun x => x.map some) ∧
      ((keptApcs results blocks).map Prod.snd).Sublist blocks ∧
      ∀ x ∈ keptApcs results blocks, built x.2.1 (some x.1)
  | _, _, .nil => by simp [keptApcs]
  | b :: bs, a :: as, .cons h t => by
    obtain ⟨h1, h2, h3⟩ := keptApcs_facts t
    cases a with
    | none =>
      refine ⟨?_, ?_, ?_⟩
      · simpa [keptApcs] using h1
      · exact List.Sublist.trans (by simpa [keptApcs] using h2) (List.sublist_cons_self _ _)
      · simpa [keptApcs] using h3
    | some a =>
      refine ⟨?_, ?_, ?_⟩
      · simpa [keptApcs] using h1
      · have : keptApcs (some a :: as) (b :: bs) = (a, b) :: keptApcs as bs := by simp [keptApcs]
        rw [this, List.map_cons]
        exact h2.cons_cons _
      · have : keptApcs (some a :: as) (b :: bs) = (a, b) :: keptApcs as bs := by simp [keptApcs]
        rw [this]
        intro x hx
        rcases List.mem_cons.1 hx with rfl | hx
        · exact h
        · exact h3 x hx

/-- The result of cell mode: it exists, and what is known about it. -/
theorem cellApcs_facts {built : List (BasicBlock I) → Option A → Prop} {info : ApcInfo I A} {cfg : CompileConfig}
    {budget maxCount : ℕ} {bs : List (BasicBlock I)} {blocks : ExecutionBlocks I}
    (hg : GoodBlocks maxCount bs blocks.1) {r : Except Panic (List A)} (h : CellApcs built info cfg budget blocks r) :
    ∃ as, r = .ok as ∧ PickedFrom built blocks.1 as ∧ as.length ≤ cfg.autoprecompiles ∧
      (as.map info.widthAfter).sum ≤ budget := by
  rw [CellApcs] at h
  split_ifs at h with h0
  · subst h
    exact ⟨[], rfl, ⟨[], .nil, by simp, by simp⟩, by simp, by simp⟩
  · obtain ⟨results, h1, is, h2, rfl⟩ := h
    change CellPgoIndices _ _ _ ((keptApcs results blocks.1).map (blockCandidate info)) _ _ at h2
    obtain ⟨k1, k2, k3⟩ := keptApcs_facts h1
    set kept := keptApcs results blocks.1 with hk
    have hs : ∀ c ∈ kept.map (blockCandidate info), c.startPcs ≠ [] := by
      intro c hc
      obtain ⟨x, hx, rfl⟩ := List.mem_map.1 hc
      have := hg.some_block x.2 (k2.subset (List.mem_map_of_mem hx))
      simpa [blockCandidate] using this
    obtain ⟨c1, c2, c3, c4⟩ := C41_caller hs h2
    have hget : ∀ i ∈ is, ∃ a, (results.filterMap fun x => x.map some)[i]? = some (some a) := by
      intro i hi
      have hi' := c2 i hi
      rw [List.length_map] at hi'
      rw [← k1, List.getElem?_map, List.getElem?_eq_getElem hi']
      exact ⟨_, rfl⟩
    obtain ⟨as, ha, hf⟩ := takeApcs_ok c1 hget
    rw [← k1] at hf
    have hf' : List.Forall₂ (fun i a => ∃ x, kept[i]? = some x ∧ x.1 = a) is as := by
      refine hf.imp ?_
      intro i a h
      rw [List.getElem?_map] at h
      cases hki : kept[i]? with
      | none => rw [hki] at h; cases h
      | some x =>
        rw [hki] at h
        exact ⟨x, rfl, by simpa using h⟩
    refine ⟨as, ha, ⟨is.map fun i => (kept[i]?.map fun x => x.2.1).getD [], ?_, ?_, ?_⟩, hf.length_eq ▸ c4, ?_⟩
    · rw [List.forall₂_map_left_iff]
      refine hf'.imp ?_
      rintro i a ⟨x, hx, rfl⟩
      rw [hx]
      exact k3 x (List.mem_of_getElem? hx)
    · intro b hb
      obtain ⟨i, hi, rfl⟩ := List.mem_map.1 hb
      have hi' := c2 i hi
      rw [List.length_map] at hi'
      rw [List.getElem?_eq_getElem hi']
      exact ⟨kept[i].2, k2.subset (List.mem_map_of_mem (List.getElem_mem _)), rfl⟩
    · rw [List.map_map]
      refine List.Nodup.map_on ?_ c1
      intro i hi j hj hij
      have hi' := c2 i hi
      have hj' := c2 j hj
      rw [List.length_map] at hi' hj'
      simp only [Function.comp, List.getElem?_eq_getElem hi', List.getElem?_eq_getElem hj', Option.map_some,
        Option.getD_some] at hij
      have hd : (kept.map fun x => x.2.1.map (·.startPc)).Nodup := by
        have := hg.distinct.sublist (k2.map fun x => x.1.map (·.startPc))
        rwa [List.map_map] at this
      have := (List.Nodup.getElem_inj_iff hd (i := i) (j := j) (hi := by simpa using hi') (hj := by simpa using hj')).1
        (by simpa using hij)
      exact this
    · refine le_trans (le_of_eq ?_) c3
      rw [totalCost]
      clear ha hget c1 c2 c3 c4 hf h2
      induction hf' with
      | nil => rfl
      | cons h _ ih =>
        obtain ⟨x, hx, rfl⟩ := h
        rw [List.map_cons, List.map_cons, List.sum_cons, List.sum_cons, ih, List.getElem?_map, hx]
        rfl

/-! ## Setup -/

theorem setupLoop_facts {info : ApcInfo I A} : ∀ (as : List A) (i : ℕ) (prog : VmProgram I) (starts : List ℕ),
    List.Forall₂ (fun a s => ∃ is, info.block a = [⟨prog.pcBase + s * defaultPcStep, is⟩] ∧ s < prog.slots.length) as starts →
    starts.Nodup → (∀ s ∈ starts, ∀ x ∈ prog.apcAt, x.1 ≠ s) →
    setupLoop info as i prog = .ok (⟨prog.pcBase, prog.slots, prog.apcAt ++
        starts.zipIdx.map (fun x => (x.1, powdrOpcode + (i + x.2)))⟩,
      as.zipIdx.map fun x => (powdrOpcode + (i + x.2), x.1))
  | [], i, prog, starts, h, _, _ => by
    cases h
    simp [setupLoop]
  | a :: as, i, prog, starts, h, hn, hd => by
    cases h with
    | cons h1 ht =>
      rename_i s starts
      obtain ⟨is, h1, h2⟩ := h1
      obtain ⟨hn1, hn2⟩ := List.nodup_cons.1 hn
      have hidx : apcStartIndex prog (info.block a) = .ok s := by
        rw [h1, apcStartIndex, if_pos (Nat.le_add_right _ _), Nat.add_sub_cancel_left]
        simp [defaultPcStep]
      have hadd : prog.addApcInstruction s (powdrOpcode + i) =
          .ok { prog with apcAt := prog.apcAt ++ [(s, powdrOpcode + i)] } := by
        rw [VmProgram.addApcInstruction, if_pos h2]
        have : (prog.apcAt.filter fun x => decide (x.1 ≠ s)) = prog.apcAt :=
          List.filter_eq_self.2 fun x hx => by simpa using hd s (by simp) x hx
        rw [this]
      have ih := setupLoop_facts as (i + 1) { prog with apcAt := prog.apcAt ++ [(s, powdrOpcode + i)] } starts ht hn2
        (by
          intro q hq x hx
          rcases List.mem_append.1 hx with hx | hx
          · exact hd q (by simp [hq]) x hx
          · rw [List.mem_singleton] at hx
            subst hx
            rintro rfl
            exact hn1 hq)
      rw [setupLoop, hidx]
      simp only [bind, Except.bind, hadd, ih, pure, Except.pure]
      congr 1
      simp only [List.zipIdx_cons, List.map_cons, List.append_assoc, List.singleton_append, Nat.add_zero, Nat.zero_add]
      rw [List.zipIdx_eq_map_add (l := starts) (i := 1), List.zipIdx_eq_map_add (l := as) (i := 1)]
      simp only [List.map_map, Function.comp_def, Nat.add_assoc, Nat.add_comm 1]

/-- A chain of steps of a given length. -/
inductive Steps {S : Type} (r : S → S → Prop) : ℕ → S → S → Prop
  | refl (x : S) : Steps r 0 x x
  | head {n : ℕ} {x y z : S} (h : r x y) (h' : Steps r n y z) : Steps r (n + 1) x z

theorem Steps.reach {S : Type} {r : S → S → Prop} {n : ℕ} {x y : S} (h : Steps r n x y) :
    Relation.ReflTransGen r x y := by
  induction h with
  | refl => exact .refl
  | head h _ ih => exact .head h ih

theorem exists_chain {S : Type} {r : S → S → Prop} {x y : S} (h : Relation.ReflTransGen r x y) :
    ∃ n, Steps r n x y := by
  induction h using Relation.ReflTransGen.head_induction_on with
  | refl => exact ⟨0, .refl _⟩
  | head h _ ih =>
    obtain ⟨n, hn⟩ := ih
    exact ⟨n + 1, .head h hn⟩

theorem VmProgram.holds_unique (prog : VmProgram I) {pc : ℕ} {i j : I} (h : prog.Holds pc i) (h' : prog.Holds pc j) :
    i = j := by
  obtain ⟨s, h1, h2⟩ := h
  obtain ⟨t, h3, h4⟩ := h'
  have : s = t := by omega
  subst this
  rw [h2] at h4
  exact Option.some.inj (Option.some.inj h4)

end Verif
