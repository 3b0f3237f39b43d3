import Verif.Spec.Visitors
import Verif.Proofs.Printed

/-!
# C91: the visitors of expressions
-/

set_option linter.unusedSimpArgs false

namespace Verif
namespace AlgExpr

variable {T R S B : Type}

/-! ## Visits that change nothing -/

theorem andThen_skip (a : S → S × Option B) : andThen a skipStep = a := by
  funext s
  unfold andThen skipStep
  rcases a s with ⟨s', _ | b⟩ <;> rfl

theorem skip_andThen (a : S → S × Option B) : andThen skipStep a = a := rfl

theorem andThen_assoc (a b c : S → S × Option B) : andThen (andThen a b) c = andThen a (andThen b c) := by
  funext s
  unfold andThen
  rcases a s with ⟨s', _ | x⟩ <;> rfl

theorem callUntilBreak_cons {α : Type} (f : α → S → S × Option B) (e : α) (t : List α) :
    callUntilBreak f (e :: t) = andThen (f e) (callUntilBreak f t) := rfl

theorem callUntilBreak_append {α : Type} (f : α → S → S × Option B) (a b : List α) :
    callUntilBreak f (a ++ b) = andThen (callUntilBreak f a) (callUntilBreak f b) := by
  induction a with
  | nil => rfl
  | cons x t ih => rw [List.cons_append, callUntilBreak_cons, callUntilBreak_cons, ih, andThen_assoc]

theorem callUntilBreak_single {α : Type} (f : α → S → S × Option B) (x : α) : callUntilBreak f [x] = f x := by
  rw [callUntilBreak_cons]
  exact andThen_skip _

/-- C91, first part: a visitor calls the function on all parts of the expression, each once, in the order asked for, until
the function breaks. -/
theorem C91_visit (o : VisitOrder) (f : AlgExpr T R → S → S × Option B) (e : AlgExpr T R) (s : S) :
    visit o f e s = callUntilBreak f (inOrder o e) s := by
  suffices h : visit o f e = callUntilBreak f (inOrder o e) by rw [h]
  cases o with
  | pre =>
    have h1 : (VisitOrder.pre = VisitOrder.post) = False := by simp
    induction e with
    | reference r =>
      simp only [visit, if_true, h1, if_false, skip_andThen, andThen_skip, inOrder, preorder, callUntilBreak_single]
    | number n =>
      simp only [visit, if_true, h1, if_false, skip_andThen, andThen_skip, inOrder, preorder, callUntilBreak_single]
    | binary l op r ihl ihr =>
      simp only [inOrder] at ihl ihr
      simp only [visit, if_true, h1, if_false, andThen_skip, inOrder, preorder, callUntilBreak_cons,
        callUntilBreak_append, ihl, ihr]
    | minus e ih =>
      simp only [inOrder] at ih
      simp only [visit, if_true, h1, if_false, andThen_skip, inOrder, preorder, callUntilBreak_cons, ih]
  | post =>
    have h1 : (VisitOrder.post = VisitOrder.pre) = False := by simp
    induction e with
    | reference r =>
      simp only [visit, if_true, h1, if_false, skip_andThen, andThen_skip, inOrder, postorder, callUntilBreak_single]
    | number n =>
      simp only [visit, if_true, h1, if_false, skip_andThen, andThen_skip, inOrder, postorder, callUntilBreak_single]
    | binary l op r ihl ihr =>
      simp only [inOrder] at ihl ihr
      simp only [visit, if_true, h1, if_false, skip_andThen, inOrder, postorder, callUntilBreak_append,
        callUntilBreak_single, ihl, ihr]
    | minus e ih =>
      simp only [inOrder] at ih
      simp only [visit, if_true, h1, if_false, skip_andThen, inOrder, postorder, callUntilBreak_append,
        callUntilBreak_single, ih]

theorem self_mem (e : AlgExpr T R) : e ∈ preorder e := by cases e <;> simp [preorder]

/-- C91: `all_children` lists the expression and all its parts, in the order of a visit before the parts. -/
theorem C91_all_children (e e' : AlgExpr T R) : e.allChildren = preorder e ∧ (e' ∈ e.allChildren ↔ PartOf e' e) := by
  have h : e.allChildren = preorder e := by
    induction e with
    | reference r => rfl
    | number n => rfl
    | binary l op r ihl ihr => simp [allChildren, preorder, ihl, ihr]
    | minus e ih => simp [allChildren, preorder, ih]
  refine ⟨h, ?_⟩
  rw [h]
  clear h
  constructor
  · intro h
    induction e with
    | reference r =>
      obtain rfl := List.mem_singleton.1 h
      exact .refl _
    | number n =>
      obtain rfl := List.mem_singleton.1 h
      exact .refl _
    | binary l op r ihl ihr =>
      rcases List.mem_cons.1 h with rfl | h
      · exact .refl _
      · rcases List.mem_append.1 h with h | h
        · exact .left (ihl h)
        · exact .right (ihr h)
    | minus e ih =>
      rcases List.mem_cons.1 h with rfl | h
      · exact .refl _
      · exact .minus (ih h)
  · intro h
    induction h with
    | refl => exact self_mem _
    | left _ ih => simp [preorder, ih]
    | right _ ih => simp [preorder, ih]
    | minus _ ih => simp [preorder, ih]

/-! ## Visits that change expressions -/

/-- The closure of `updateAll`. -/
def pureVisitor (g : AlgExpr T R → AlgExpr T R) : Unit → AlgExpr T R → Unit × AlgExpr T R × Option Unit :=
  fun (_ : Unit) e => ((), g e, none)

theorem visitList_some {α : Type} {v : Unit → α → Option (Unit × α × Option Unit)} {l l' : List α}
    (h : List.Forall₂ (fun a b => v () a = some ((), b, none)) l l') : visitList v () l = some ((), l', none) := by
  induction h with
  | nil => rfl
  | cons h1 _ ih => simp only [visitList, h1, ih]

theorem updateAll_of_visit {o : VisitOrder} {g : AlgExpr T R → AlgExpr T R} {n : ℕ} {e e' : AlgExpr T R}
    (h : visitMut o (pureVisitor g) n () e = some ((), e', none)) : updateAll o g n e = some e' := by
  unfold updateAll
  have : visitMut o (fun (_ : Unit) e => ((), g e, (none : Option Unit))) n () e = some ((), e', none) := h
  rw [this]
  rfl

/-- A visit that ends does not break, and its steps. -/
theorem visitMut_cases (o : VisitOrder) (g : AlgExpr T R → AlgExpr T R) (n : ℕ) (e : AlgExpr T R) :
    visitMut o (pureVisitor g) n () e = none ∨ ∃ e', visitMut o (pureVisitor g) n () e = some ((), e', none) := by
  induction n generalizing e with
  | zero => exact .inl rfl
  | succ n ih =>
    have hl : ∀ l : List (AlgExpr T R), visitList (visitMut o (pureVisitor g) n) () l = none ∨
        ∃ l', visitList (visitMut o (pureVisitor g) n) () l = some ((), l', none) := by
      intro l
      induction l with
      | nil => exact .inr ⟨[], rfl⟩
      | cons x t iht =>
        rcases ih x with h | ⟨x', h⟩
        · exact .inl (by simp only [visitList, h])
        · rcases iht with h' | ⟨t', h'⟩
          · exact .inl (by simp only [visitList, h, h'])
          · exact .inr ⟨x' :: t', by simp only [visitList, h, h']⟩
    cases o with
    | pre =>
      rcases hl (g e).children with h | ⟨l', h⟩
      · exact .inl (by simp only [visitMut, pureVisitor, if_true] at h ⊢; simp only [h])
      · exact .inr ⟨_, by simp only [visitMut, pureVisitor, if_true] at h ⊢; simp only [h]; rfl⟩
    | post =>
      rcases hl e.children with h | ⟨l', h⟩
      · exact .inl (by
          simp only [visitMut, pureVisitor, show (VisitOrder.post = VisitOrder.pre) = False by simp, if_false] at h ⊢
          simp only [h])
      · exact .inr ⟨_, by
          simp only [visitMut, pureVisitor, show (VisitOrder.post = VisitOrder.pre) = False by simp, if_false] at h ⊢
          simp only [h]
          rfl⟩

theorem visitMut_pre {g : AlgExpr T R → AlgExpr T R} {n : ℕ} {e : AlgExpr T R} {cs : List (AlgExpr T R)}
    (h : visitList (visitMut .pre (pureVisitor g) n) () (g e).children = some ((), cs, none)) :
    visitMut .pre (pureVisitor g) (n + 1) () e = some ((), (g e).setChildren cs, none) := by
  simp only [visitMut, if_true, pureVisitor] at h ⊢
  simp only [h]
  rfl

theorem visitMut_post {g : AlgExpr T R → AlgExpr T R} {n : ℕ} {e : AlgExpr T R} {cs : List (AlgExpr T R)}
    (h : visitList (visitMut .post (pureVisitor g) n) () e.children = some ((), cs, none)) :
    visitMut .post (pureVisitor g) (n + 1) () e = some ((), g (e.setChildren cs), none) := by
  simp only [visitMut, show (VisitOrder.post = VisitOrder.pre) = False by simp, if_false, pureVisitor] at h ⊢
  simp only [h]
  rfl

/-- The number of nested calls that are enough for an expression. -/
def height : AlgExpr T R → ℕ
  | reference _ => 1
  | number _ => 1
  | binary l _ r => max l.height r.height + 1
  | minus e => e.height + 1

theorem visitMut_refs {g : AlgExpr T R → AlgExpr T R} {h : R → AlgExpr T R} (hr : ∀ r, g (reference r) = h r)
    (hleaf : ∀ r, (h r).children = []) (hn : ∀ n, g (number n) = number n)
    (hb : ∀ l op r, g (binary l op r) = binary l op r) (hm : ∀ e, g (minus e) = minus e) (o : VisitOrder)
    (e : AlgExpr T R) {n : ℕ} (hle : e.height ≤ n) :
    visitMut o (pureVisitor g) n () e = some ((), replaceRefs h e, none) := by
  have hset : ∀ r, (h r).setChildren [] = h r := by
    intro r
    cases h r <;> rfl
  induction e generalizing n with
  | reference r =>
    cases n with
    | zero => simp [height] at hle
    | succ n =>
      cases o with
      | pre =>
        refine (visitMut_pre (cs := []) ?_).trans ?_
        · rw [hr, hleaf]
          rfl
        · rw [hr, hset]
          rfl
      | post =>
        refine (visitMut_post (cs := []) rfl).trans ?_
        show some ((), g (reference r), none) = _
        rw [hr]
        rfl
  | number m =>
    cases n with
    | zero => simp [height] at hle
    | succ n =>
      cases o with
      | pre =>
        refine (visitMut_pre (cs := []) ?_).trans ?_
        · rw [hn]
          rfl
        · rw [hn]
          rfl
      | post =>
        refine (visitMut_post (cs := []) rfl).trans ?_
        show some ((), g (number m), none) = _
        rw [hn]
        rfl
  | binary l op r ihl ihr =>
    cases n with
    | zero => simp [height] at hle
    | succ n =>
      simp only [height] at hle
      have hl := ihl (n := n) (by omega)
      have hr' := ihr (n := n) (by omega)
      have hlist : visitList (visitMut o (pureVisitor g) n) () [l, r] =
          some ((), [replaceRefs h l, replaceRefs h r], none) :=
        visitList_some (.cons hl (.cons hr' .nil))
      cases o with
      | pre =>
        refine (visitMut_pre (cs := [replaceRefs h l, replaceRefs h r]) ?_).trans ?_
        · rw [hb]
          exact hlist
        · rw [hb]
          rfl
      | post =>
        refine (visitMut_post (cs := [replaceRefs h l, replaceRefs h r]) hlist).trans ?_
        show some ((), g (binary _ op _), none) = _
        rw [hb]
        rfl
  | minus e ih =>
    cases n with
    | zero => simp [height] at hle
    | succ n =>
      simp only [height] at hle
      have he := ih (n := n) (by omega)
      have hlist : visitList (visitMut o (pureVisitor g) n) () [e] = some ((), [replaceRefs h e], none) :=
        visitList_some (.cons he .nil)
      cases o with
      | pre =>
        refine (visitMut_pre (cs := [replaceRefs h e]) ?_).trans ?_
        · rw [hm]
          exact hlist
        · rw [hm]
          rfl
      | post =>
        refine (visitMut_post (cs := [replaceRefs h e]) hlist).trans ?_
        show some ((), g (minus _), none) = _
        rw [hm]
        rfl

/-- C91, second part: a visitor that changes references only, into references or numbers, ends in both orders and changes
each of them exactly once. -/
theorem C91_references (g : AlgExpr T R → AlgExpr T R) (h : R → AlgExpr T R) (hr : ∀ r, g (reference r) = h r)
    (hleaf : ∀ r, (∃ r', h r = reference r') ∨ ∃ n, h r = number n) (hn : ∀ n, g (number n) = number n)
    (hb : ∀ l op r, g (binary l op r) = binary l op r) (hm : ∀ e, g (minus e) = minus e) (o : VisitOrder)
    (e : AlgExpr T R) : ∃ N, ∀ n ≥ N, updateAll o g n e = some (replaceRefs h e) := by
  refine ⟨e.height, fun n hle => updateAll_of_visit (visitMut_refs hr ?_ hn hb hm o e hle)⟩
  intro r
  rcases hleaf r with ⟨r', h⟩ | ⟨n, h⟩ <;> rw [h] <;> rfl

/-- C91, third part: a visit after the parts always ends, whatever the function does, and the function has been applied to
every expression of the original, from the bottom to the top. -/
theorem C91_post (g : AlgExpr T R → AlgExpr T R) (e : AlgExpr T R) :
    ∃ N, ∀ n ≥ N, updateAll .post g n e = some (fromBottom g e) := by
  suffices h : ∀ n, e.height ≤ n → visitMut .post (pureVisitor g) n () e = some ((), fromBottom g e, none) from
    ⟨e.height, fun n hle => updateAll_of_visit (h n hle)⟩
  induction e with
  | reference r =>
    intro n hle
    cases n with
    | zero => simp [height] at hle
    | succ n => exact visitMut_post (cs := []) rfl
  | number m =>
    intro n hle
    cases n with
    | zero => simp [height] at hle
    | succ n => exact visitMut_post (cs := []) rfl
  | binary l op r ihl ihr =>
    intro n hle
    cases n with
    | zero => simp [height] at hle
    | succ n =>
      simp only [height] at hle
      exact visitMut_post (cs := [fromBottom g l, fromBottom g r])
        (visitList_some (.cons (ihl n (by omega)) (.cons (ihr n (by omega)) .nil)))
  | minus e ih =>
    intro n hle
    cases n with
    | zero => simp [height] at hle
    | succ n =>
      simp only [height] at hle
      exact visitMut_post (cs := [fromBottom g e]) (visitList_some (.cons (ih n (by omega)) .nil))

/-! ## Substitution -/

/-- What a visit that ends has done. -/
theorem visitMut_pre_inv {g : AlgExpr T R → AlgExpr T R} {n : ℕ} {e e' : AlgExpr T R}
    (h : visitMut .pre (pureVisitor g) (n + 1) () e = some ((), e', none)) :
    ∃ cs, List.Forall₂ (fun a b => visitMut .pre (pureVisitor g) n () a = some ((), b, none)) (g e).children cs ∧
      e' = (g e).setChildren cs := by
  have hl : ∀ l : List (AlgExpr T R), visitList (visitMut .pre (pureVisitor g) n) () l = none ∨
      ∃ l', visitList (visitMut .pre (pureVisitor g) n) () l = some ((), l', none) ∧
        List.Forall₂ (fun a b => visitMut .pre (pureVisitor g) n () a = some ((), b, none)) l l' := by
    intro l
    induction l with
    | nil => exact .inr ⟨[], rfl, .nil⟩
    | cons x t iht =>
      rcases visitMut_cases .pre g n x with h | ⟨x', h⟩
      · exact .inl (by simp only [visitList, h])
      · rcases iht with h' | ⟨t', h', hf⟩
        · exact .inl (by simp only [visitList, h, h'])
        · exact .inr ⟨x' :: t', by simp only [visitList, h, h'], .cons h hf⟩
  rcases hl (g e).children with hx | ⟨cs, hx, hf⟩
  · have : visitMut .pre (pureVisitor g) (n + 1) () e = none := by
      simp only [visitMut, if_true, pureVisitor] at hx ⊢
      simp only [hx]
    rw [this] at h
    cases h
  · refine ⟨cs, hf, ?_⟩
    rw [visitMut_pre hx] at h
    simpa using h.symm

theorem updateAll_visit {o : VisitOrder} {g : AlgExpr T R → AlgExpr T R} {n : ℕ} {e e' : AlgExpr T R}
    (h : updateAll o g n e = some e') : visitMut o (pureVisitor g) n () e = some ((), e', none) := by
  unfold updateAll at h
  have heq : visitMut o (fun (_ : Unit) e => ((), g e, (none : Option Unit))) n () e = visitMut o (pureVisitor g) n () e := rfl
  rw [heq] at h
  rcases visitMut_cases o g n e with h' | ⟨x, h'⟩
  · rw [h'] at h
    cases h
  · rw [h'] at h ⊢
    simpa using h

/-- C91, fourth part: a substitution by expressions that have the same value keeps the value, if it ends. -/
theorem C91_substitute_value {F : Type} [CommRing F] (σ : R → F) (sub : AlgExpr F R → Option (AlgExpr F R))
    (hsub : ∀ k v, sub k = some v → valueIn σ v = valueIn σ k) (n : ℕ) (e e' : AlgExpr F R)
    (h : substituteSubexpressions sub n e = some e') : valueIn σ e' = valueIn σ e := by
  replace h := updateAll_visit h
  have hg : ∀ x, valueIn σ ((sub x).getD x) = valueIn σ x := by
    intro x
    cases hx : sub x with
    | none => rfl
    | some v => exact hsub x v hx
  clear hsub
  obtain ⟨g, hgd⟩ : ∃ g : AlgExpr F R → AlgExpr F R, g = fun x => (sub x).getD x := ⟨_, rfl⟩
  rw [← hgd] at h
  replace hg : ∀ x, valueIn σ (g x) = valueIn σ x := by
    rw [hgd]
    exact hg
  clear hgd
  induction n generalizing e e' with
  | zero => cases h
  | succ n ih =>
    obtain ⟨cs, hf, rfl⟩ := visitMut_pre_inv h
    have hg' : valueIn σ (g e) = valueIn σ e := hg e
    rw [← hg']
    cases hge : g e with
    | reference r =>
      rw [hge] at hf
      cases hf
      rfl
    | number m =>
      rw [hge] at hf
      cases hf
      rfl
    | binary l op r =>
      rw [hge] at hf
      cases hf with
      | cons h1 h2 =>
        cases h2 with
        | cons h2 h3 =>
          cases h3
          have e1 := ih _ _ h1
          have e2 := ih _ _ h2
          unfold valueIn at e1 e2 ⊢
          simp only [setChildren, toExpression, e1, e2]
    | minus x =>
      rw [hge] at hf
      cases hf with
      | cons h1 h2 =>
        cases h2
        have e1 := ih _ _ h1
        unfold valueIn at e1 ⊢
        simp only [setChildren, toExpression, e1]

theorem setChildren_children (e : AlgExpr T R) : e.setChildren e.children = e := by cases e <;> rfl

theorem visitMut_fixed {g : AlgExpr T R → AlgExpr T R} (e : AlgExpr T R) (hfix : ∀ x, PartOf x e → g x = x) {n : ℕ}
    (hle : e.height ≤ n) : visitMut .pre (pureVisitor g) n () e = some ((), e, none) := by
  induction e generalizing n with
  | reference r =>
    cases n with
    | zero => simp [height] at hle
    | succ n =>
      refine (visitMut_pre (cs := []) (by rw [hfix _ (.refl _)]; rfl)).trans ?_
      rw [hfix _ (.refl _)]
      rfl
  | number r =>
    cases n with
    | zero => simp [height] at hle
    | succ n =>
      refine (visitMut_pre (cs := []) (by rw [hfix _ (.refl _)]; rfl)).trans ?_
      rw [hfix _ (.refl _)]
      rfl
  | binary l op r ihl ihr =>
    cases n with
    | zero => simp [height] at hle
    | succ n =>
      simp only [height] at hle
      refine (visitMut_pre (cs := [l, r]) ?_).trans ?_
      · rw [hfix _ (.refl _)]
        exact visitList_some (.cons (ihl (fun x hx => hfix x (.left hx)) (by omega))
          (.cons (ihr (fun x hx => hfix x (.right hx)) (by omega)) .nil))
      · rw [hfix _ (.refl _)]
        rfl
  | minus e ih =>
    cases n with
    | zero => simp [height] at hle
    | succ n =>
      simp only [height] at hle
      refine (visitMut_pre (cs := [e]) ?_).trans ?_
      · rw [hfix _ (.refl _)]
        exact visitList_some (.cons (ih (fun x hx => hfix x (.minus hx)) (by omega)) .nil)
      · rw [hfix _ (.refl _)]
        rfl

theorem forall_height (l : List (AlgExpr T R)) : ∃ N, ∀ x ∈ l, x.height ≤ N := by
  induction l with
  | nil => exact ⟨0, by simp⟩
  | cons x t ih =>
    obtain ⟨N, hN⟩ := ih
    refine ⟨max x.height N, ?_⟩
    intro y hy
    rcases List.mem_cons.1 hy with rfl | hy
    · exact le_max_left _ _
    · exact le_trans (hN y hy) (le_max_right _ _)

/-- C91, fifth part: if no replacement has a part (other than itself) that is to be replaced, the substitution ends, and it
has replaced the outermost expressions that have a replacement. -/
theorem C91_substitute (sub : AlgExpr T R → Option (AlgExpr T R))
    (hsub : ∀ k v, sub k = some v → ∀ c ∈ v.children, ∀ x, PartOf x c → sub x = none) (e : AlgExpr T R) :
    ∃ e', Replaced sub e e' ∧ ∃ N, ∀ n ≥ N, substituteSubexpressions sub n e = some e' := by
  suffices h : ∃ e', Replaced sub e e' ∧ ∃ N, ∀ n ≥ N,
      visitMut .pre (pureVisitor fun e => (sub e).getD e) n () e = some ((), e', none) by
    obtain ⟨e', h1, N, h2⟩ := h
    exact ⟨e', h1, N, fun n hn => updateAll_of_visit (h2 n hn)⟩
  have key : ∀ (e v : AlgExpr T R), sub e = some v → ∃ e', Replaced sub e e' ∧ ∃ N, ∀ n ≥ N,
      visitMut .pre (pureVisitor fun e => (sub e).getD e) n () e = some ((), e', none) := by
    intro e v hv
    obtain ⟨N, hN⟩ := forall_height v.children
    refine ⟨v, .key hv, N + 1, ?_⟩
    intro n hn
    obtain ⟨n, rfl⟩ : ∃ k, n = k + 1 := ⟨n - 1, by omega⟩
    have hg : (sub e).getD e = v := by simp only [hv, Option.getD_some]
    refine (visitMut_pre (cs := v.children) ?_).trans ?_
    · rw [hg]
      apply visitList_some
      rw [List.forall₂_same]
      intro c hc
      exact visitMut_fixed c (fun x hx => by simp only [hsub e v hv c hc x hx, Option.getD_none])
        (le_trans (hN c hc) (by omega))
    · rw [hg, setChildren_children]
  induction e with
  | reference r =>
    cases hs : sub (reference r) with
    | some v => exact key _ v hs
    | none =>
      refine ⟨_, .reference hs, 1, fun n hn => ?_⟩
      obtain ⟨n, rfl⟩ : ∃ k, n = k + 1 := ⟨n - 1, by omega⟩
      refine (visitMut_pre (cs := []) (by simp only [hs, Option.getD_none]; rfl)).trans ?_
      simp only [hs, Option.getD_none]
      rfl
  | number m =>
    cases hs : sub (number m) with
    | some v => exact key _ v hs
    | none =>
      refine ⟨_, .number hs, 1, fun n hn => ?_⟩
      obtain ⟨n, rfl⟩ : ∃ k, n = k + 1 := ⟨n - 1, by omega⟩
      refine (visitMut_pre (cs := []) (by simp only [hs, Option.getD_none]; rfl)).trans ?_
      simp only [hs, Option.getD_none]
      rfl
  | binary l op r ihl ihr =>
    cases hs : sub (binary l op r) with
    | some v => exact key _ v hs
    | none =>
      obtain ⟨l', hl, N1, h1⟩ := ihl
      obtain ⟨r', hr, N2, h2⟩ := ihr
      refine ⟨_, .binary hs hl hr, max N1 N2 + 1, fun n hn => ?_⟩
      obtain ⟨n, rfl⟩ : ∃ k, n = k + 1 := ⟨n - 1, by omega⟩
      refine (visitMut_pre (cs := [l', r']) ?_).trans ?_
      · simp only [hs, Option.getD_none]
        exact visitList_some (.cons (h1 n (by omega)) (.cons (h2 n (by omega)) .nil))
      · simp only [hs, Option.getD_none]
        rfl
  | minus e ih =>
    cases hs : sub (minus e) with
    | some v => exact key _ v hs
    | none =>
      obtain ⟨e', he, N1, h1⟩ := ih
      refine ⟨_, .minus hs he, N1 + 1, fun n hn => ?_⟩
      obtain ⟨n, rfl⟩ : ∃ k, n = k + 1 := ⟨n - 1, by omega⟩
      refine (visitMut_pre (cs := [e']) ?_).trans ?_
      · simp only [hs, Option.getD_none]
        exact visitList_some (.cons (h1 n (by omega)) .nil)
      · simp only [hs, Option.getD_none]
        rfl

/-- C91, sixth part: a substitution of an expression by one that contains it, directly below the top, does not end: no
number of nested calls is enough. -/
theorem C91_substitute_endless (sub : AlgExpr T R → Option (AlgExpr T R)) (k v : AlgExpr T R) (hv : sub k = some v)
    (hk : k ∈ v.children) (n : ℕ) : substituteSubexpressions sub n k = none := by
  cases h : substituteSubexpressions sub n k with
  | none => rfl
  | some e' =>
    exfalso
    have h := updateAll_visit h
    induction n generalizing e' with
    | zero => cases h
    | succ n ih =>
      obtain ⟨cs, hf, -⟩ := visitMut_pre_inv h
      simp only [hv, Option.getD_some] at hf
      have : ∃ b, visitMut .pre (pureVisitor fun e => (sub e).getD e) n () k = some ((), b, none) := by
        clear h hv ih
        generalize v.children = l at hf hk
        induction hf with
        | nil => cases hk
        | cons h1 _ ih =>
          rcases List.mem_cons.1 hk with rfl | hk
          · exact ⟨_, h1⟩
          · exact ih hk
      obtain ⟨b, hb⟩ := this
      exact ih b (updateAll_of_visit hb) hb

end AlgExpr

/-! ## Names -/

namespace SymMachine

variable {T : Type}

theorem refs_of_children (e : AlgExpr T SavedRef) : (e.allChildren.filterMap fun e =>
    match e with
    | .reference r => some r
    | _ => none) = e.refs := by
  induction e with
  | reference r => rfl
  | number n => rfl
  | binary l op r ihl ihr =>
    simp only [AlgExpr.allChildren, List.flatten_cons, List.flatten_nil, List.append_nil, List.filterMap_cons,
      List.filterMap_append, ihl, ihr, AlgExpr.refs]
  | minus e ih =>
    simp only [AlgExpr.allChildren, List.flatten_cons, List.flatten_nil, List.append_nil, List.filterMap_cons, ih,
      AlgExpr.refs]

theorem find_insertColumn (r : SavedRef) (l : List SavedRef) (i : ℕ) :
    (insertColumn r l).find? (fun x => x.id = i) = if r.id = i then some r else l.find? fun x => x.id = i := by
  induction l with
  | nil => by_cases h : r.id = i <;> simp [insertColumn, List.find?_cons, h]
  | cons a t ih =>
    simp only [insertColumn]
    split
    · by_cases h : r.id = i <;> simp [List.find?_cons, h]
    · split
      · rename_i h1 h2
        by_cases h : r.id = i
        · simp [List.find?_cons, h]
        · have : a.id ≠ i := by omega
          simp [List.find?_cons, h, this]
      · rename_i h1 h2
        rw [List.find?_cons, List.find?_cons, ih]
        by_cases h : a.id = i
        · have : r.id ≠ i := by omega
          simp [h, this]
        · simp [h]

theorem find_foldl (rs l : List SavedRef) (i : ℕ) :
    (rs.foldl (fun l r => insertColumn r l) l).find? (fun x => x.id = i) =
      (rs.reverse.find? fun x => x.id = i).or (l.find? fun x => x.id = i) := by
  induction rs generalizing l with
  | nil => simp
  | cons r t ih =>
    rw [List.foldl_cons, ih, find_insertColumn, List.reverse_cons, List.find?_append]
    cases t.reverse.find? fun x => x.id = i with
    | some x => simp
    | none => by_cases h : r.id = i <;> simp [List.find?_cons, h]

theorem uniqueReferences_find (m : SymMachine T SavedRef) (i : ℕ) :
    (m.uniqueReferences.find? fun x => x.id = i) = m.refs.reverse.find? fun x => x.id = i := by
  have : m.uniqueReferences = m.refs.foldl (fun l r => insertColumn r l) [] := by
    unfold uniqueReferences
    congr 1
    unfold allChildren refs
    rw [List.filterMap_flatMap]
    congr 1
    funext e
    exact refs_of_children e
  rw [this, find_foldl]
  simp

theorem lookup_map_find (l : List SavedRef) (h : List Char → List Char) (i : ℕ) :
    (l.map fun r => (r.id, h r.name)).lookup i = (l.find? fun x => x.id = i).map fun r => h r.name := by
  induction l with
  | nil => rfl
  | cons a t ih =>
    rw [List.map_cons, List.lookup_cons, List.find?_cons, ih]
    by_cases e : a.id = i
    · subst e
      simp
    · have : (i == a.id) = false := beq_eq_false_iff_ne.2 fun h => e h.symm
      simp [this, e]

theorem lookup_nameById (m : SymMachine T SavedRef) (suffix i : ℕ) :
    (m.nameById suffix).lookup i = (m.lastName i).map (globalizedName suffix) := by
  unfold nameById lastName
  rw [lookup_map_find, uniqueReferences_find, Option.map_map]
  rfl

theorem replaceRefs_mapRefs (f : SavedRef → SavedRef) (e : AlgExpr T SavedRef) :
    e.replaceRefs (fun r => .reference (f r)) = e.mapRefs f := by
  induction e with
  | reference r => rfl
  | number n => rfl
  | binary l op r ihl ihr => simp only [AlgExpr.replaceRefs, AlgExpr.mapRefs, ihl, ihr]
  | minus e ih => simp only [AlgExpr.replaceRefs, AlgExpr.mapRefs, ih]

theorem mapRefs_congr' {f g : SavedRef → SavedRef} (e : AlgExpr T SavedRef) (h : ∀ r ∈ e.refs, f r = g r) :
    e.mapRefs f = e.mapRefs g := by
  induction e with
  | reference r => simp only [AlgExpr.mapRefs, h r (by simp [AlgExpr.refs])]
  | number n => rfl
  | binary l op r ihl ihr =>
    simp only [AlgExpr.mapRefs, ihl fun r hr => h r (by simp [AlgExpr.refs, hr]),
      ihr fun r hr => h r (by simp [AlgExpr.refs, hr])]
  | minus e ih => simp only [AlgExpr.mapRefs, ih fun r hr => h r (by simpa [AlgExpr.refs] using hr)]

theorem optionMapM_map {α β : Type} {f : α → Option β} {g : α → β} {l : List α} (h : ∀ x ∈ l, f x = some (g x)) :
    l.mapM f = some (l.map g) := by
  induction l with
  | nil => rfl
  | cons a t ih =>
    rw [List.mapM_cons, h a (by simp), ih fun x hx => h x (List.mem_cons_of_mem _ hx)]
    rfl

theorem updateAll_ends (g : AlgExpr T SavedRef → AlgExpr T SavedRef) (f : SavedRef → SavedRef)
    (hr : ∀ r, g (.reference r) = .reference (f r)) (hn : ∀ n, g (.number n) = .number n)
    (hb : ∀ l op r, g (.binary l op r) = .binary l op r) (hm : ∀ e, g (.minus e) = .minus e) (m : SymMachine T SavedRef) :
    ∃ N, ∀ n ≥ N, m.updateAll g n = some (m.onRefs f) := by
  have hexpr : ∀ (e : AlgExpr T SavedRef) n, e.height ≤ n → e.updateAll .pre g n = some (e.mapRefs f) := by
    intro e n hle
    rw [← replaceRefs_mapRefs]
    exact AlgExpr.updateAll_of_visit (AlgExpr.visitMut_refs (h := fun r => .reference (f r)) hr (fun r => rfl) hn hb hm .pre e hle)
  obtain ⟨N, hN⟩ := AlgExpr.forall_height m.exprs
  refine ⟨N, fun n hle => ?_⟩
  have hex : ∀ e ∈ m.exprs, e.updateAll .pre g n = some (e.mapRefs f) := fun e he => hexpr e n (le_trans (hN e he) hle)
  have h1 : m.constraints.mapM (AlgExpr.updateAll .pre g n) = some (m.constraints.map (AlgExpr.mapRefs f)) :=
    optionMapM_map fun e he => hex e (List.mem_append_left _ he)
  have h2 : (m.bus.mapM fun b => do
      let mult ← b.mult.updateAll .pre g n
      let args ← b.args.mapM (AlgExpr.updateAll .pre g n)
      pure (⟨b.id, mult, args⟩ : SymBus T SavedRef)) =
      some (m.bus.map fun b => ⟨b.id, b.mult.mapRefs f, b.args.map (AlgExpr.mapRefs f)⟩) := by
    refine optionMapM_map fun b hb' => ?_
    have hm1 := hex b.mult (List.mem_append_right _ (List.mem_flatMap.2 ⟨b, hb', by simp⟩))
    have hm2 : b.args.mapM (AlgExpr.updateAll .pre g n) = some (b.args.map (AlgExpr.mapRefs f)) :=
      optionMapM_map fun e he => hex e (List.mem_append_right _ (List.mem_flatMap.2 ⟨b, hb', List.mem_cons_of_mem _ he⟩))
    rw [hm1, hm2]
    rfl
  unfold updateAll
  rw [h1, h2]
  rfl

/-- C91, seventh part: the names of the references of an instruction get the number of the instruction as a suffix. This
does not panic, keeps the ids and everything else, and all references with the same id get the same name, that of the last
one. -/
theorem C91_names (m : SymMachine T SavedRef) (suffix : ℕ) :
    (∀ r ∈ m.refs, ∃ name, m.lastName r.id = some name) ∧
    ∃ N, ∀ n ≥ N, globalizeReferenceNames n m suffix =
      some (some (m.onRefs fun r => ⟨((m.lastName r.id).getD r.name) ++ '_' :: Nat.toDigits 10 suffix, r.id⟩)) := by
  have hlast : ∀ r ∈ m.refs, ∃ name, m.lastName r.id = some name := by
    intro r hr
    unfold lastName
    cases h : m.refs.reverse.find? fun x => x.id = r.id with
    | none =>
      rw [List.find?_eq_none] at h
      exact absurd (by simp) (h r (by simpa using hr))
    | some x => exact ⟨_, rfl⟩
  refine ⟨hlast, ?_⟩
  obtain ⟨N, hN⟩ := updateAll_ends (renameReference (m.nameById suffix))
    (fun r => ⟨((m.nameById suffix).lookup r.id).getD r.name, r.id⟩) (fun _ => rfl) (fun _ => rfl) (fun _ _ _ => rfl)
    (fun _ => rfl) m
  refine ⟨N, fun n hn => ?_⟩
  unfold globalizeReferenceNames
  have hall : (m.refs.all fun r => ((m.nameById suffix).lookup r.id).isSome) = true := by
    rw [List.all_eq_true]
    intro r hr
    obtain ⟨name, h⟩ := hlast r hr
    rw [lookup_nameById, h]
    rfl
  rw [if_pos hall, hN n hn, Option.map_some]
  congr 2
  have hcongr : ∀ e ∈ m.exprs, e.mapRefs (fun r => (⟨((m.nameById suffix).lookup r.id).getD r.name, r.id⟩ : SavedRef)) =
      e.mapRefs fun r => ⟨((m.lastName r.id).getD r.name) ++ '_' :: Nat.toDigits 10 suffix, r.id⟩ := by
    intro e he
    refine mapRefs_congr' e fun r hr => ?_
    obtain ⟨name, h⟩ := hlast r (List.mem_flatMap.2 ⟨e, he, hr⟩)
    rw [lookup_nameById, h]
    rfl
  unfold onRefs
  congr 1
  · exact List.map_congr_left fun e he => hcongr e (List.mem_append_left _ he)
  · refine List.map_congr_left fun b hb => ?_
    rw [hcongr b.mult (List.mem_append_right _ (List.mem_flatMap.2 ⟨b, hb, by simp⟩))]
    congr 1
    exact List.map_congr_left fun e he =>
      hcongr e (List.mem_append_right _ (List.mem_flatMap.2 ⟨b, hb, List.mem_cons_of_mem _ he⟩))

theorem digits_no_underscore (n : ℕ) : '_' ∉ Nat.toDigits 10 n := by
  intro h
  have := Nat.isDigit_of_mem_toDigits (by omega) (by omega) h
  exact absurd this (by decide)

theorem split_at_last {a b d d' : List Char} {c : Char} (h : a ++ c :: d = b ++ c :: d') (hd : c ∉ d) (hd' : c ∉ d') :
    a = b ∧ d = d' := by
  rcases List.append_eq_append_iff.1 h with ⟨x, h1, h2⟩ | ⟨x, h1, h2⟩
  · cases x with
    | nil =>
      simp at h1 h2
      exact ⟨h1.symm, h2⟩
    | cons y t =>
      simp only [List.cons_append, List.cons.injEq] at h2
      exact absurd (by rw [h2.2]; simp) hd
  · cases x with
    | nil =>
      simp at h1 h2
      exact ⟨h1, h2.symm⟩
    | cons y t =>
      simp only [List.cons_append, List.cons.injEq] at h2
      exact absurd (by rw [h2.2]; simp) hd'

/-- C91, eighth part: the new names of two instructions are different, and the new names of one instruction are different
if the old ones were. -/
theorem C91_names_distinct (s t : ℕ) (a b : List Char) : globalizedName s a = globalizedName t b ↔ a = b ∧ s = t := by
  constructor
  · intro h
    obtain ⟨h1, h2⟩ := split_at_last h (digits_no_underscore s) (digits_no_underscore t)
    exact ⟨h1, toDigits_injective h2⟩
  · rintro ⟨rfl, rfl⟩
    rfl

end SymMachine

/-! ## Concrete cases -/

/-- A sum of a product and a reference, its order of visits. -/
def visitSample : AlgExpr ℤ ℕ := .binary (.binary (.reference 0) .mul (.number 2)) .add (.minus (.reference 1))

example : visitSample.allChildren.length = 6 ∧ (AlgExpr.postorder visitSample).head? = some (.reference 0) := by
  decide +kernel

/-- The substitution of `x` by `x + 1` does not end. -/
example (n : ℕ) : AlgExpr.substituteSubexpressions (fun e => if e = (.reference 0 : AlgExpr ℤ ℕ) then
    some (.binary (.reference 0) .add (.number 1)) else none) n (.reference 0) = none :=
  AlgExpr.C91_substitute_endless _ _ (.binary (.reference 0) .add (.number 1)) (if_pos rfl) (by simp [AlgExpr.children]) n

/-- The substitution of `x` by `y + 1` does. -/
example : AlgExpr.substituteSubexpressions (fun e => if e = (.reference 0 : AlgExpr ℤ ℕ) then
    some (.binary (.reference 1) .add (.number 1)) else none) 9 visitSample =
    some (.binary (.binary (.binary (.reference 1) .add (.number 1)) .mul (.number 2)) .add (.minus (.reference 1))) := by
  decide +kernel

/-- The hypothesis of `C91_substitute` for it. -/
example : ∀ k v : AlgExpr ℤ ℕ, (if k = (.reference 0 : AlgExpr ℤ ℕ) then
    some (AlgExpr.binary (.reference 1) .add (.number 1)) else none) = some v → ∀ c ∈ v.children, ∀ x,
    AlgExpr.PartOf x c → (if x = (.reference 0 : AlgExpr ℤ ℕ) then
      some (AlgExpr.binary (.reference 1) .add (.number 1)) else none) = none := by
  intro k v h c hc x hx
  split_ifs at h
  obtain rfl := Option.some.inj h
  rw [if_neg]
  rintro rfl
  simp only [AlgExpr.children, List.mem_cons, List.not_mem_nil, or_false] at hc
  rcases hc with rfl | rfl <;> cases hx

end Verif
