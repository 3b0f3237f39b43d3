import Verif.Spec.Symbols

/-!
# Names of addresses are made different
-/

set_option linter.unusedSectionVars false
set_option linter.unusedSimpArgs false

namespace Verif

/-! ## Hexadecimal numbers -/

theorem hexDigit_inj {a b : ℕ} (ha : a < 16) (hb : b < 16) (h : hexDigit a = hexDigit b) : a = b := by
  have : ∀ a : Fin 16, ∀ b : Fin 16, hexDigit a = hexDigit b → a = b := by decide
  have := this ⟨a, ha⟩ ⟨b, hb⟩ h
  simpa using this

theorem hex8_inj {a b : ℕ} (ha : a < 2 ^ 32) (hb : b < 2 ^ 32) (h : hex8 a = hex8 b) : a = b := by
  simp only [hex8, List.cons.injEq, and_true] at h
  obtain ⟨h7, h6, h5, h4, h3, h2, h1, h0⟩ := h
  have d : ∀ {x y : ℕ}, hexDigit (x % 16) = hexDigit (y % 16) → x % 16 = y % 16 := fun h =>
    hexDigit_inj (Nat.mod_lt _ (by decide)) (Nat.mod_lt _ (by decide)) h
  have h7 := d h7
  have h6 := d h6
  have h5 := d h5
  have h4 := d h4
  have h3 := d h3
  have h2 := d h2
  have h1 := d h1
  have h0 := d h0
  have e2 : (16 : ℕ) ^ 2 = 256 := by decide
  have e3 : (16 : ℕ) ^ 3 = 4096 := by decide
  have e4 : (16 : ℕ) ^ 4 = 65536 := by decide
  have e5 : (16 : ℕ) ^ 5 = 1048576 := by decide
  have e6 : (16 : ℕ) ^ 6 = 16777216 := by decide
  have e7 : (16 : ℕ) ^ 7 = 268435456 := by decide
  have e32 : (2 : ℕ) ^ 32 = 4294967296 := by decide
  rw [e7] at h7
  rw [e6] at h6
  rw [e5] at h5
  rw [e4] at h4
  rw [e3] at h3
  rw [e2] at h2
  rw [e32] at ha hb
  omega

theorem hex8_length (a : ℕ) : (hex8 a).length = 8 := rfl

/-- The name ends with the address. -/
def Marked (x : SymName × ℕ) : Prop := ∃ n, x.1 = n ++ '_' :: hex8 x.2

theorem marked_rename (x : SymName × ℕ) : Marked (renameSymbol x) := ⟨x.1, rfl⟩

theorem marked_unique {x y : SymName × ℕ} (hx : Marked x) (hy : Marked y) (h : x.1 = y.1) (h1 : x.2 < 2 ^ 32)
    (h2 : y.2 < 2 ^ 32) : x.2 = y.2 := by
  obtain ⟨n, hn⟩ := hx
  obtain ⟨m, hm⟩ := hy
  rw [hn, hm] at h
  have := (List.append_inj' h (by simp [hex8_length])).2
  simp only [List.cons.injEq, true_and] at this
  exact hex8_inj h1 h2 this

/-! ## Sorting -/

theorem symLe_trans (a b c : SymName × ℕ) (h1 : symLe a b = true) (h2 : symLe b c = true) : symLe a c = true := by
  simp only [symLe, decide_eq_true_eq] at *
  rcases h1 with h1 | ⟨h1, h1'⟩ <;> rcases h2 with h2 | ⟨h2, h2'⟩
  · exact .inl (h1.trans h2)
  · exact .inl (h2 ▸ h1)
  · exact .inl (h1 ▸ h2)
  · exact .inr ⟨h1.trans h2, h1'.trans h2'⟩

theorem symLe_total (a b : SymName × ℕ) : (symLe a b || symLe b a) = true := by
  simp only [symLe, Bool.or_eq_true, decide_eq_true_eq]
  rcases lt_trichotomy a.1 b.1 with h | h | h
  · exact .inl (.inl h)
  · rcases Nat.le_total a.2 b.2 with h' | h'
    · exact .inl (.inr ⟨h, h'⟩)
    · exact .inr (.inr ⟨h.symm, h'⟩)
  · exact .inr (.inl h)

/-- The strict order of pairs. -/
def symLt (x y : SymName × ℕ) : Prop := x.1 < y.1 ∨ (x.1 = y.1 ∧ x.2 < y.2)

theorem symLt_of_le {x y : SymName × ℕ} (h : symLe x y = true) (hne : x ≠ y) : symLt x y := by
  simp only [symLe, decide_eq_true_eq] at h
  rcases h with h | ⟨h, h'⟩
  · exact .inl h
  · refine .inr ⟨h, lt_of_le_of_ne h' ?_⟩
    intro h2
    exact hne (Prod.ext h h2)

theorem mem_dedupNeighbours {A : Type} [DecidableEq A] (l : List A) (x : A) : x ∈ dedupNeighbours l ↔ x ∈ l := by
  induction l using dedupNeighbours.induct with
  | case1 => simp [dedupNeighbours]
  | case2 a => simp [dedupNeighbours]
  | case3 a t ih => rw [dedupNeighbours, if_pos rfl, ih]; simp
  | case4 a b t hne ih => rw [dedupNeighbours, if_neg hne, List.mem_cons, ih, List.mem_cons (l := b :: t)]

theorem dedupNeighbours_sublist {A : Type} [DecidableEq A] (l : List A) : (dedupNeighbours l).Sublist l := by
  induction l using dedupNeighbours.induct with
  | case1 => exact List.Sublist.refl _
  | case2 a => exact List.Sublist.refl _
  | case3 a t ih => rw [dedupNeighbours, if_pos rfl]; exact ih.trans (List.sublist_cons_self _ _)
  | case4 a b t hne ih => rw [dedupNeighbours, if_neg hne]; exact ih.cons_cons _

/-- Equal elements are neighbours in an ordered list. -/
theorem dedupNeighbours_pairwise {A : Type} [DecidableEq A] {r : A → A → Prop} (hanti : ∀ a b, r a b → r b a → a = b)
    {l : List A} (h : l.Pairwise r) : (dedupNeighbours l).Pairwise fun a b => r a b ∧ a ≠ b := by
  induction l using dedupNeighbours.induct with
  | case1 => exact List.Pairwise.nil
  | case2 a => exact List.pairwise_singleton _ _
  | case3 a t ih =>
    rw [dedupNeighbours, if_pos rfl]
    exact ih (List.pairwise_cons.1 h).2
  | case4 a b t hne ih =>
    rw [dedupNeighbours, if_neg hne]
    obtain ⟨h1, h2⟩ := List.pairwise_cons.1 h
    refine List.pairwise_cons.2 ⟨fun c hc => ?_, ih h2⟩
    rw [mem_dedupNeighbours] at hc
    refine ⟨h1 c hc, ?_⟩
    rintro rfl
    rcases List.mem_cons.1 hc with hc | hc
    · exact hne hc
    · exact hne (hanti _ _ (h1 b (by simp)) ((List.pairwise_cons.1 h2).1 _ hc))

/-- The sorted list without repetitions. -/
def sortedSyms (l : List (SymName × ℕ)) : List (SymName × ℕ) := dedupNeighbours (l.mergeSort symLe)

theorem mem_sortedSyms {l : List (SymName × ℕ)} {x : SymName × ℕ} : x ∈ sortedSyms l ↔ x ∈ l := by
  rw [sortedSyms, mem_dedupNeighbours, List.mem_mergeSort]

theorem sortedSyms_pairwise (l : List (SymName × ℕ)) : (sortedSyms l).Pairwise symLt := by
  have h := List.pairwise_mergeSort symLe_trans symLe_total l
  have h2 := dedupNeighbours_pairwise (r := fun a b => symLe a b = true) (fun a b h1 h2 => ?_) h
  · exact h2.imp fun hh => symLt_of_le hh.1 hh.2
  · simp only [symLe, decide_eq_true_eq] at h1 h2
    rcases h1 with h1 | ⟨h1, h1'⟩ <;> rcases h2 with h2 | ⟨h2, h2'⟩
    · exact absurd (h1.trans h2) (lt_irrefl _)
    · exact absurd (h2 ▸ h1) (lt_irrefl _)
    · exact absurd (h1 ▸ h2) (lt_irrefl _)
    · exact Prod.ext h1 (Nat.le_antisymm h1' h2')

/-! ## A pass -/

/-- There is another entry with the same name. -/
def Clashes (l : List (SymName × ℕ)) (x : SymName × ℕ) : Prop := ∃ y ∈ l, y.1 = x.1 ∧ y ≠ x

open Classical in
/-- What a pass does to an entry. -/
noncomputable def passMap (l : List (SymName × ℕ)) (x : SymName × ℕ) : SymName × ℕ :=
  if Clashes l x then renameSymbol x else x

theorem takeWhile_all {A : Type} (p : A → Bool) (l : List A) : ∀ x ∈ l.takeWhile p, p x = true := by
  induction l with
  | nil => simp
  | cons a t ih =>
    intro x hx
    rw [List.takeWhile_cons] at hx
    by_cases h : p a = true
    · rw [if_pos h] at hx
      rcases List.mem_cons.1 hx with rfl | hx
      · exact h
      · exact ih x hx
    · rw [if_neg h] at hx
      exact absurd hx (by simp)

theorem rest_names {x : SymName × ℕ} {t : List (SymName × ℕ)} (h : (x :: t).Pairwise symLt) :
    ∀ y ∈ t.dropWhile (fun y => decide (y.1 = x.1)), x.1 < y.1 := by
  obtain ⟨h1, h2⟩ := List.pairwise_cons.1 h
  cases hd : t.dropWhile (fun y => decide (y.1 = x.1)) with
  | nil => simp
  | cons z r =>
    have hz : ¬ z.1 = x.1 := by
      have := List.head?_dropWhile_not (fun y : SymName × ℕ => decide (y.1 = x.1)) t
      rw [hd] at this
      simpa using this
    have hsub : (z :: r).Sublist t := hd ▸ List.dropWhile_sublist _
    have hxz : x.1 < z.1 := by
      rcases h1 z (hsub.subset (by simp)) with h | h
      · exact h
      · exact absurd h.1.symm hz
    intro y hy
    rcases List.mem_cons.1 hy with rfl | hy
    · exact hxz
    · have := (List.pairwise_cons.1 (h2.sublist hsub)).1 y hy
      rcases this with h | h
      · exact hxz.trans h
      · exact h.1 ▸ hxz

/-- The result of a pass. -/
theorem renameGroups_eq (l : List (SymName × ℕ)) (hs : l.Pairwise symLt) :
    (renameGroups l).1 = l.map (passMap l) ∧ ((renameGroups l).2 = true ↔ ∃ x ∈ l, Clashes l x) := by
  obtain ⟨n, hn⟩ : ∃ n, l.length ≤ n := ⟨_, le_rfl⟩
  induction n generalizing l with
  | zero =>
    obtain rfl : l = [] := List.eq_nil_of_length_eq_zero (by omega)
    simp [renameGroups]
  | succ n ih =>
    cases l with
    | nil => simp [renameGroups]
    | cons x t =>
      have hrest := rest_names hs
      have hgroup := takeWhile_all (fun y : SymName × ℕ => decide (y.1 = x.1)) t
      have hsplit := List.takeWhile_append_dropWhile (p := fun y : SymName × ℕ => decide (y.1 = x.1)) (l := t)
      have hlen := (List.dropWhile_suffix fun y : SymName × ℕ => decide (y.1 = x.1)).length_le (l₂ := t)
      have hsub : (t.dropWhile fun y => decide (y.1 = x.1)).Sublist (x :: t) :=
        (List.dropWhile_sublist _).trans (List.sublist_cons_self _ _)
      have hr := ih (t.dropWhile fun y => decide (y.1 = x.1)) (hs.sublist hsub) (by simp only [List.length_cons] at hn; omega)
      rw [renameGroups]
      generalize hG : t.takeWhile (fun y => decide (y.1 = x.1)) = G at *
      generalize hR : t.dropWhile (fun y => decide (y.1 = x.1)) = R at *
      subst hsplit
      have hgroup : ∀ y ∈ G, y.1 = x.1 := fun y hy => by simpa using hgroup y hy
      have hx1 := (List.pairwise_cons.1 hs).1
      have hne : ∀ y ∈ G, y ≠ x := by
        rintro y hy rfl
        rcases hx1 y (List.mem_append_left _ hy) with h | h
        · exact lt_irrefl _ h
        · exact lt_irrefl _ h.2
      have hcx : Clashes (x :: (G ++ R)) x ↔ G ≠ [] := by
        constructor
        · rintro ⟨y, hy, h1, h2⟩
          rcases List.mem_cons.1 hy with rfl | hy
          · exact absurd rfl h2
          · rcases List.mem_append.1 hy with hy | hy
            · exact List.ne_nil_of_mem hy
            · exact absurd h1 (ne_of_gt (hrest y hy))
        · intro h
          obtain ⟨y, hy⟩ := List.exists_mem_of_ne_nil _ h
          exact ⟨y, List.mem_cons_of_mem _ (List.mem_append_left _ hy), hgroup y hy, hne y hy⟩
      have hcG : ∀ y ∈ G, Clashes (x :: (G ++ R)) y := fun y hy =>
        ⟨x, List.mem_cons_self, (hgroup y hy).symm, (hne y hy).symm⟩
      have hcR : ∀ y ∈ R, Clashes (x :: (G ++ R)) y ↔ Clashes R y := by
        intro y hy
        constructor
        · rintro ⟨z, hz, h1, h2⟩
          rcases List.mem_cons.1 hz with rfl | hz
          · exact absurd h1 (ne_of_lt (hrest y hy))
          · rcases List.mem_append.1 hz with hz | hz
            · exact absurd ((hgroup z hz).symm.trans h1) (ne_of_lt (hrest y hy))
            · exact ⟨z, hz, h1, h2⟩
        · rintro ⟨z, hz, h1, h2⟩
          exact ⟨z, List.mem_cons_of_mem _ (List.mem_append_right _ hz), h1, h2⟩
      have hmR : R.map (passMap (x :: (G ++ R))) = R.map (passMap R) := by
        refine List.map_congr_left fun y hy => ?_
        by_cases hc : Clashes R y
        · rw [passMap, passMap, if_pos hc, if_pos ((hcR y hy).2 hc)]
        · rw [passMap, passMap, if_neg hc, if_neg (fun h => hc ((hcR y hy).1 h))]
      have hmG : G.map (passMap (x :: (G ++ R))) = G.map renameSymbol := by
        refine List.map_congr_left fun y hy => ?_
        simp only [passMap, hcG y hy, if_true]
      have hmx : passMap (x :: (G ++ R)) x = if G ≠ [] then renameSymbol x else x := by
        by_cases hg : G = []
        · rw [passMap, if_neg (fun h => hcx.1 h hg), if_neg (fun h => h hg)]
        · rw [passMap, if_pos (hcx.2 hg), if_pos hg]
      by_cases hg : G = []
      · subst hg
        simp only [List.isEmpty_nil, if_true, List.map_cons, List.nil_append, hr.1] at hmR hmx ⊢
        rw [hmR, hmx]
        refine ⟨by simp, ?_⟩
        rw [hr.2]
        simp only [List.nil_append] at hcR hcx
        constructor
        · rintro ⟨y, hy, hc⟩
          exact ⟨y, List.mem_cons_of_mem _ hy, (hcR y hy).2 hc⟩
        · rintro ⟨y, hy, hc⟩
          rcases List.mem_cons.1 hy with rfl | hy
          · exact absurd rfl (hcx.1 hc)
          · exact ⟨y, hy, (hcR y hy).1 hc⟩
      · have : G.isEmpty = false := by simpa using hg
        simp only [this, Bool.false_eq_true, if_false, List.map_cons, List.map_append, hr.1]
        rw [hmR, hmx, hmG, if_pos hg]
        refine ⟨by simp, ?_⟩
        simp only [true_iff]
        exact ⟨x, List.mem_cons_self, hcx.2 hg⟩

/-! ## All passes -/

theorem mem_dedupPass {l : List (SymName × ℕ)} {x : SymName × ℕ} :
    x ∈ (dedupPass l).1 ↔ ∃ y ∈ l, x = passMap (sortedSyms l) y := by
  have h := (renameGroups_eq _ (sortedSyms_pairwise l)).1
  rw [dedupPass, ← sortedSyms, h, List.mem_map]
  constructor
  · rintro ⟨y, hy, rfl⟩
    exact ⟨y, mem_sortedSyms.1 hy, rfl⟩
  · rintro ⟨y, hy, rfl⟩
    exact ⟨y, mem_sortedSyms.2 hy, rfl⟩

theorem dedupPass_changed {l : List (SymName × ℕ)} : (dedupPass l).2 = true ↔ ∃ x ∈ sortedSyms l, Clashes (sortedSyms l) x :=
  (renameGroups_eq _ (sortedSyms_pairwise l)).2

theorem dedupPass_same {l : List (SymName × ℕ)} (h : (dedupPass l).2 = false) : (dedupPass l).1 = sortedSyms l := by
  have h1 := (renameGroups_eq _ (sortedSyms_pairwise l)).1
  have hn : ∀ x ∈ sortedSyms l, ¬ Clashes (sortedSyms l) x := by
    intro x hx hc
    have := dedupPass_changed.2 ⟨x, hx, hc⟩
    rw [h] at this
    exact Bool.noConfusion this
  have h1 : (dedupPass l).1 = _ := h1
  rw [h1]
  conv_rhs => rw [← List.map_id (sortedSyms l)]
  refine List.map_congr_left fun x hx => ?_
  simp only [passMap, hn x hx, if_false, id]

open Classical in
/-- The number of entries whose names do not end with the address. -/
noncomputable def plainCount (l : List (SymName × ℕ)) : ℕ := l.countP fun x => decide (¬ Marked x)

theorem countP_map_lt {A : Type} (p : A → Bool) (f : A → A) (l : List A) (h : ∀ x, p (f x) = true → p x = true) {a : A}
    (ha : a ∈ l) (h1 : p a = true) (h2 : p (f a) = false) : (l.map f).countP p < l.countP p := by
  have hle : ∀ l : List A, (l.map f).countP p ≤ l.countP p := fun l => by
    rw [List.countP_map]
    exact List.countP_mono_left fun x _ hx => h x hx
  obtain ⟨s, t, rfl⟩ := List.append_of_mem ha
  rw [List.map_append, List.map_cons, List.countP_append, List.countP_append, List.countP_cons, List.countP_cons, h1, h2]
  have := hle s
  have := hle t
  simp only [if_true, Bool.false_eq_true, if_false]
  omega

theorem plainCount_sorted (l : List (SymName × ℕ)) : plainCount (sortedSyms l) ≤ plainCount l := by
  unfold plainCount
  refine ((dedupNeighbours_sublist (l.mergeSort symLe)).countP_le).trans ?_
  rw [(List.mergeSort_perm l symLe).countP_eq]

theorem unmarked_pass {l : List (SymName × ℕ)} (hb : ∀ x ∈ l, x.2 < 2 ^ 32) (h : (dedupPass l).2 = true) :
    plainCount (dedupPass l).1 < plainCount l := by
  obtain ⟨x, hx, y, hy, h1, h2⟩ := dedupPass_changed.1 h
  have hne : y.2 ≠ x.2 := fun hh => h2 (Prod.ext h1 hh)
  refine lt_of_lt_of_le ?_ (plainCount_sorted l)
  have h1' : (dedupPass l).1 = _ := (renameGroups_eq _ (sortedSyms_pairwise l)).1
  rw [h1']
  have key : ∃ a ∈ sortedSyms l, Clashes (sortedSyms l) a ∧ ¬ Marked a := by
    by_cases hm : Marked x
    · refine ⟨y, hy, ⟨x, hx, h1.symm, h2.symm⟩, fun hm2 => hne ?_⟩
      exact marked_unique hm2 hm h1 (hb y (mem_sortedSyms.1 hy)) (hb x (mem_sortedSyms.1 hx))
    · exact ⟨x, hx, ⟨y, hy, h1, h2⟩, hm⟩
  obtain ⟨a, ha, hc, hm⟩ := key
  refine countP_map_lt _ _ _ (fun z hz => ?_) ha (by simpa using hm) ?_
  · simp only [decide_eq_true_eq] at hz ⊢
    intro hmz
    apply hz
    rw [passMap]
    split_ifs
    · exact marked_rename z
    · exact hmz
  · rw [decide_eq_false_iff_not, not_not, passMap, if_pos hc]
    exact marked_rename a

theorem passMap_snd (l : List (SymName × ℕ)) (x : SymName × ℕ) : (passMap l x).2 = x.2 := by
  rw [passMap]; split_ifs <;> rfl

theorem dedupPass_bound {l : List (SymName × ℕ)} (hb : ∀ x ∈ l, x.2 < 2 ^ 32) : ∀ x ∈ (dedupPass l).1, x.2 < 2 ^ 32 := by
  intro x hx
  obtain ⟨y, hy, rfl⟩ := mem_dedupPass.1 hx
  rw [passMap_snd]
  exact hb y hy

theorem dedupNames_total (n : ℕ) : ∀ {l : List (SymName × ℕ)}, (∀ x ∈ l, x.2 < 2 ^ 32) → plainCount l < n →
    ∃ r, dedupNames n l = some r := by
  induction n with
  | zero => intro l _ h; omega
  | succ n ih =>
    intro l hb h
    rw [dedupNames]
    by_cases hc : (dedupPass l).2 = true
    · simp only [hc, if_true]
      exact ih (dedupPass_bound hb) (by have := unmarked_pass hb hc; omega)
    · simp only [hc]
      exact ⟨_, rfl⟩

/-- An invariant of the passes. -/
theorem dedupNames_inv {P : List (SymName × ℕ) → Prop} (hp : ∀ l, P l → P (dedupPass l).1) (n : ℕ) :
    ∀ {l r : List (SymName × ℕ)}, P l → dedupNames n l = some r →
    ∃ l', P l' ∧ (dedupPass l').2 = false ∧ r = sortedSyms l' := by
  induction n with
  | zero => intro l r _ h; simp [dedupNames] at h
  | succ n ih =>
    intro l r hP h
    rw [dedupNames] at h
    by_cases hc : (dedupPass l).2 = true
    · simp only [hc, if_true] at h
      exact ih (hp _ hP) h
    · simp only [hc, Bool.false_eq_true, if_false, Option.some.injEq] at h
      have hc := Bool.eq_false_iff.2 hc
      exact ⟨l, hP, hc, h.symm.trans (dedupPass_same hc)⟩

theorem dedupNames_mono (n k : ℕ) : ∀ {l r : List (SymName × ℕ)}, dedupNames n l = some r → dedupNames (n + k) l = some r := by
  induction n with
  | zero => intro l r h; simp [dedupNames] at h
  | succ n ih =>
    intro l r h
    rw [Nat.add_right_comm, dedupNames]
    rw [dedupNames] at h
    by_cases hc : (dedupPass l).2 = true
    · simp only [hc, if_true] at h ⊢
      exact ih h
    · simp only [hc] at h ⊢
      exact h

/-- The entries are those of the first list, with the address appended to some names. -/
def NamesOf (l0 l : List (SymName × ℕ)) : Prop :=
  (∀ x ∈ l, ∃ n k, (n, x.2) ∈ l0 ∧ x.1 = withAddress n x.2 k) ∧
    ∀ x ∈ l0, ∃ k, (withAddress x.1 x.2 k, x.2) ∈ l

theorem namesOf_refl (l : List (SymName × ℕ)) : NamesOf l l :=
  ⟨fun x hx => ⟨x.1, 0, hx, rfl⟩, fun _ hx => ⟨0, hx⟩⟩

theorem namesOf_pass {l0 l : List (SymName × ℕ)} (h : NamesOf l0 l) : NamesOf l0 (dedupPass l).1 := by
  constructor
  · intro x hx
    obtain ⟨y, hy, rfl⟩ := mem_dedupPass.1 hx
    obtain ⟨n, k, h1, h2⟩ := h.1 y hy
    rw [passMap_snd]
    by_cases hc : Clashes (sortedSyms l) y
    · refine ⟨n, k + 1, h1, ?_⟩
      simp only [passMap, hc, if_true, renameSymbol, withAddress, h2]
    · refine ⟨n, k, h1, ?_⟩
      simp only [passMap, hc, if_false, h2]
  · intro x hx
    obtain ⟨k, hk⟩ := h.2 x hx
    by_cases hc : Clashes (sortedSyms l) (withAddress x.1 x.2 k, x.2)
    · refine ⟨k + 1, mem_dedupPass.2 ⟨_, hk, ?_⟩⟩
      simp only [passMap, hc, if_true, renameSymbol, withAddress]
    · refine ⟨k, mem_dedupPass.2 ⟨_, hk, ?_⟩⟩
      simp only [passMap, hc, if_false]

/-- An entry that no other entry can become equal to keeps its name. -/
theorem kept_pass {l0 l : List (SymName × ℕ)} {x : SymName × ℕ} (h0 : NamesOf l0 l)
    (hu : ∀ y ∈ l0, ∀ k, x.1 = withAddress y.1 y.2 k → y.2 = x.2) (hx : x ∈ l) : x ∈ (dedupPass l).1 := by
  refine mem_dedupPass.2 ⟨x, hx, ?_⟩
  rw [passMap, if_neg]
  rintro ⟨y, hy, h1, h2⟩
  obtain ⟨n, k, h3, h4⟩ := h0.1 y (mem_sortedSyms.1 hy)
  exact h2 (Prod.ext h1 (hu (n, y.2) h3 k (h1.symm.trans h4)))

theorem noClash_pairwise {l : List (SymName × ℕ)} (h : (dedupPass l).2 = false) :
    (sortedSyms l).Pairwise fun x y => x.1 < y.1 := by
  refine (sortedSyms_pairwise l).imp_of_mem fun {x y} hx hy hxy => ?_
  rcases hxy with hxy | hxy
  · exact hxy
  · refine absurd (dedupPass_changed.2 ⟨x, hx, y, hy, hxy.1.symm, ?_⟩) (by simp [h])
    rintro rfl
    exact lt_irrefl _ hxy.2

/-! ## The table -/

theorem natSorted_pairwise (l : List ℕ) :
    (dedupNeighbours (l.mergeSort fun a b => decide (a ≤ b))).Pairwise (· < ·) := by
  have h := List.pairwise_mergeSort (le := fun a b : ℕ => decide (a ≤ b)) (fun a b c h1 h2 => by simp at *; omega)
    (fun a b => by simp; omega) l
  have h2 := dedupNeighbours_pairwise (r := fun a b : ℕ => decide (a ≤ b) = true) (fun a b h1 h2 => by simp at *; omega) h
  exact h2.imp fun {a b} hh => by
    have := hh.1
    simp only [decide_eq_true_eq] at this
    exact lt_of_le_of_ne this hh.2

theorem symTable_keys (l : List (SymName × ℕ)) : ((symTable l).map Prod.fst).Pairwise (· < ·) := by
  rw [symTable, List.map_map]
  have : (Prod.fst ∘ fun a => (a, (l.filter fun x => decide (x.2 = a)).map Prod.fst) : ℕ → ℕ) = id := rfl
  rw [this, List.map_id]
  exact natSorted_pairwise _

theorem mem_symTable {l : List (SymName × ℕ)} {x : ℕ × List SymName} :
    x ∈ symTable l ↔ (∃ y ∈ l, y.2 = x.1) ∧ x.2 = (l.filter fun y => y.2 = x.1).map Prod.fst := by
  rw [symTable, List.mem_map]
  constructor
  · rintro ⟨a, ha, rfl⟩
    rw [mem_dedupNeighbours, List.mem_mergeSort, List.mem_map] at ha
    exact ⟨ha, rfl⟩
  · rintro ⟨ha, hx⟩
    refine ⟨x.1, ?_, Prod.ext rfl hx.symm⟩
    rw [mem_dedupNeighbours, List.mem_mergeSort, List.mem_map]
    exact ha

theorem symTable_get (l : List (SymName × ℕ)) (addr : ℕ) :
    (symTable l).get addr = if ∃ y ∈ l, y.2 = addr then some ((l.filter fun y => y.2 = addr).map Prod.fst) else none := by
  rw [SymTable.get]
  by_cases h : ∃ y ∈ l, y.2 = addr
  · rw [if_pos h]
    cases hf : (symTable l).find? fun x => decide (x.1 = addr) with
    | none =>
      rw [List.find?_eq_none] at hf
      exact absurd (by simp) (hf (addr, (l.filter fun y => y.2 = addr).map Prod.fst) (mem_symTable.2 ⟨h, rfl⟩))
    | some x =>
      have h1 := List.find?_some hf
      simp only [decide_eq_true_eq] at h1
      have h2 := (mem_symTable.1 (List.mem_of_find?_eq_some hf)).2
      rw [h1] at h2
      simp [h2]
  · rw [if_neg h]
    cases hf : (symTable l).find? fun x => decide (x.1 = addr) with
    | none => rfl
    | some x =>
      have h1 := List.find?_some hf
      simp only [decide_eq_true_eq] at h1
      have h2 := (mem_symTable.1 (List.mem_of_find?_eq_some hf)).1
      rw [h1] at h2
      exact absurd h2 h

/-- The names of an address. -/
theorem symTable_tryGetOne (l : List (SymName × ℕ)) (addr : ℕ) :
    (symTable l).tryGetOne addr = ((l.filter fun y => y.2 = addr).map Prod.fst).head? := by
  rw [SymTable.tryGetOne, symTable_get]
  split_ifs with h
  · rfl
  · have : l.filter (fun y => decide (y.2 = addr)) = [] := by
      rw [List.filter_eq_nil_iff]
      intro y hy
      simp only [decide_eq_true_eq]
      exact fun hh => h ⟨y, hy, hh⟩
    rw [this]
    rfl

theorem symTable_getAll (l : List (SymName × ℕ)) (addr : ℕ) :
    (symTable l).getAll addr = if ∃ y ∈ l, y.2 = addr then (l.filter fun y => y.2 = addr).map Prod.fst
      else [SymTable.defaultLabel addr] := by
  by_cases h : ∃ y ∈ l, y.2 = addr
  · rw [SymTable.getAll, symTable_get, if_pos h, if_pos h]
    obtain ⟨y, hy, h⟩ := h
    have : ((l.filter fun y => decide (y.2 = addr)).map Prod.fst).isEmpty = false := by
      rw [List.isEmpty_eq_false_iff]
      exact List.ne_nil_of_mem (List.mem_map_of_mem (List.mem_filter.2 ⟨hy, by simpa using h⟩))
    simp only [Option.getD_some, this, Bool.false_eq_true, if_false]
  · rw [SymTable.getAll, symTable_get, if_neg h, if_neg h]
    rfl

/-- The nearest symbol that does not come later. -/
theorem symTable_preceding (l : List (SymName × ℕ)) (addr : ℕ) (x : ℕ × List SymName) :
    ((symTable l).filter fun x => decide (x.1 ≤ addr)).getLast? = some x ↔
      x ∈ symTable l ∧ x.1 ≤ addr ∧ ∀ y ∈ l, y.2 ≤ addr → y.2 ≤ x.1 := by
  have hs : ((symTable l).filter fun x => decide (x.1 ≤ addr)).Pairwise fun a b => a.1 < b.1 :=
    ((List.pairwise_map.1 (symTable_keys l)).filter _)
  have hmem : ∀ y ∈ l, y.2 ≤ addr → ∃ z ∈ (symTable l).filter (fun x => decide (x.1 ≤ addr)), z.1 = y.2 := fun y hy hle =>
    ⟨(y.2, (l.filter fun z => z.2 = y.2).map Prod.fst), List.mem_filter.2 ⟨mem_symTable.2 ⟨⟨y, hy, rfl⟩, rfl⟩, by simpa using hle⟩, rfl⟩
  constructor
  · intro h
    have hx := List.mem_of_getLast? h
    obtain ⟨ys, hys⟩ := List.getLast?_eq_some_iff.1 h
    have hx' := List.mem_filter.1 hx
    refine ⟨hx'.1, by simpa using hx'.2, fun y hy hle => ?_⟩
    obtain ⟨z, hz, hzy⟩ := hmem y hy hle
    rw [hys] at hz hs
    rw [← hzy]
    rcases List.mem_append.1 hz with hz | hz
    · exact le_of_lt ((List.pairwise_append.1 hs).2.2 z hz x (by simp))
    · rw [List.mem_singleton.1 hz]
  · rintro ⟨h1, h2, h3⟩
    have hx : x ∈ (symTable l).filter fun x => decide (x.1 ≤ addr) := List.mem_filter.2 ⟨h1, by simpa using h2⟩
    obtain ⟨s, t, hst⟩ := List.append_of_mem hx
    cases t with
    | nil => rw [hst]; simp
    | cons z t =>
      exfalso
      have hz : z ∈ (symTable l).filter fun x => decide (x.1 ≤ addr) := by rw [hst]; simp
      have hz' := List.mem_filter.1 hz
      obtain ⟨y, hy, hyz⟩ := (mem_symTable.1 hz'.1).1
      have hle : z.1 ≤ addr := by simpa using hz'.2
      have := h3 y hy (by omega)
      rw [hst] at hs
      have := (List.pairwise_cons.1 (List.pairwise_append.1 hs).2.1).1 z (by simp)
      omega

end Verif
