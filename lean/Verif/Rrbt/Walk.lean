import Verif.Rrbt.Swap
import Verif.Rbt.Lookup

/-!
# Deletion, put together, and searching
-/

namespace Verif.Rrbt

open Verif.Rbt (Tree Frame Ctx plug traverse ctxL ctxR traverse_plug blacken RB CtxRB)
open Verif.Rbt.Tree (leaf node)
open Verif.Rbt.Color (red black)

variable {κ : Type} {t : Inst} {key : Nat → κ}

/-! ## deletion -/

theorem rootBlack_of_ctxRB : ∀ {ctx : Ctx Nat} {c : Color} {k : Nat}, CtxRB c k ctx → RootBlack' c ctx
  | [], c, k, h => by cases h; simp [RootBlack']
  | [f], c, k, h => by
    cases h with
    | redL a b => cases b
    | redR a b => cases b
    | blackL a b => simp [RootBlack', RootBlack]
    | blackR a b => simp [RootBlack', RootBlack]
  | f :: g :: ctx, c, k, h => by
    have : ∃ c' k', CtxRB c' k' (g :: ctx) := by
      cases h with
      | redL a b => exact ⟨_, _, b⟩
      | redR a b => exact ⟨_, _, b⟩
      | blackL a b => exact ⟨_, _, b⟩
      | blackR a b => exact ⟨_, _, b⟩
    obtain ⟨c', k', h'⟩ := this
    have h1 := rootBlack_of_ctxRB h'
    simp only [RootBlack', reduceCtorEq, if_false] at h1 ⊢
    cases f <;> exact h1

theorem pred_red_leaf {c : Color} {k : Nat} {l : Tree Nat} (h : RB c k l) (pl : Tree Nat) (px : Nat)
    (below : Ctx Nat) (hp : Rbt.findPred l [] = some (red, pl, px, below)) : pl = leaf := by
  have hne : l ≠ leaf := by rintro rfl; simp [Rbt.findPred] at hp
  obtain ⟨pc, pl', px', below', e, hpl, _⟩ := Rbt.findPred_ok hne ([] : Ctx Nat)
  rw [hp] at e
  simp only [Option.some.injEq, Prod.mk.injEq, List.append_nil] at e
  obtain ⟨rfl, rfl, rfl, rfl⟩ := e
  rw [← hpl] at h
  have hall : ∀ (fs : Ctx Nat) (T : Tree Nat) (c : Color) (k : Nat), RB c k (plug T fs) → ∃ c' k', RB c' k' T := by
    intro fs
    induction fs with
    | nil => intro T c k h; exact ⟨_, _, h⟩
    | cons f fs ih =>
      intro T c k h
      cases f with
      | L fc fx fr =>
        obtain ⟨_, _, h1⟩ := ih _ _ _ h
        cases h1 with
        | red a b => exact ⟨_, _, a⟩
        | black a b => exact ⟨_, _, a⟩
      | R fc fl fx =>
        obtain ⟨_, _, h1⟩ := ih _ _ _ h
        cases h1 with
        | red a b => exact ⟨_, _, b⟩
        | black a b => exact ⟨_, _, b⟩
  obtain ⟨c', k', h1⟩ := hall _ _ _ _ h
  cases h1 with
  | red a b => cases b; cases a; rfl

theorem del_spec (hb : 0 < t.base) (hs : t.size ≤ 2 ^ 63) {fuel k : Nat} {m : Mem κ} {w w' : Tree Nat} {n : Nat}
    {q q' : Int} (h : Rep t key m w) (hrb : RB black k w) (hf : (traverse w).length ≤ fuel)
    (hw : Rbt.del ⟨w, q⟩ n = some ⟨w', q'⟩) :
    Spec (del t fuel (pt t n)) m fun _ m' => Rep t key m' (blacken w') := by
  unfold Rbt.del at hw
  split at hw
  · cases hw
  · dsimp only at hw
    cases hloc : Rbt.locate n w [] with
    | none => rw [hloc] at hw; cases hw
    | some v =>
      obtain ⟨c, l, r, ctx⟩ := v
      rw [hloc] at hw
      dsimp only at hw
      obtain ⟨up, e, hp⟩ := Rbt.locate_ok hloc
      rw [List.append_nil] at e
      subst e
      rw [← hp] at h hrb hf
      obtain ⟨c', k', h1, h2⟩ := Rbt.unplug_rb hrb
      have hcc : c' = c := by cases h1 <;> rfl
      subst hcc
      have hroot := rootBlack_of_ctxRB h2
      have hlen : ctx.length ≤ fuel := Nat.le_trans (ctx_length _ _) hf
      cases hdn : Rbt.delNode c' l r ctx with
      | none => rw [hdn] at hw; cases hw
      | some w1 =>
        rw [hdn] at hw
        simp only [Option.some.injEq, Rbt.Rbt.mk.injEq] at hw
        obtain ⟨rfl, _⟩ := hw
        by_cases hl : l = leaf
        · subst hl
          unfold del
          refine Spec.bind (h.rd ?_)
          rw [if_neg (by simp [top])]
          exact delLow_spec hb hs hlen hroot h (by simpa [Rbt.delNode] using hdn)
        · by_cases hr : r = leaf
          · subst hr
            unfold del
            refine Spec.bind (h.rd ?_)
            rw [if_neg (by simp [top])]
            exact delLow_spec hb hs hlen hroot h (by cases l <;> simpa [Rbt.delNode] using hdn)
          · refine delTwo_spec hb hs hf hroot h hl hr ?_ ?_
            · intro pl px below hp'
              have : ∃ cl kl, RB cl kl l := by
                cases h1 with
                | red a b => exact ⟨_, _, a⟩
                | black a b => exact ⟨_, _, a⟩
              obtain ⟨cl, kl, hrl⟩ := this
              exact pred_red_leaf hrl pl px below hp'
            · cases l with
              | leaf => exact absurd rfl hl
              | node _ _ _ _ =>
                cases r with
                | leaf => exact absurd rfl hr
                | node _ _ _ _ => simpa [Rbt.delNode] using hdn

/-! ## searching -/

/-- NULL when there is none -/
def opt (t : Inst) (o : Option Nat) : Ptr := pt t (o.getD 0)

theorem root_ptr {m : Mem κ} {w : Tree Nat} (h : Rep t key m w) {α : Type} {f : Ptr → M κ α} {Q : α → Mem κ → Prop}
    (hq : Spec (f (pt t (top w))) m Q) : Spec (do let root ← getRoot; let r ← ptr t root; f r) m Q := by
  refine Spec.bind (sp_getRoot ?_)
  rw [h.root]
  exact Spec.bind (sp_ptr h.tree.top_ok hq)

theorem height_le : ∀ T : Tree Nat, Rbt.height T ≤ (traverse T).length
  | leaf => Nat.le_refl _
  | node c l x r => by
    have h1 := height_le l
    have h2 := height_le r
    simp only [Rbt.height, traverse, List.length_append, List.length_cons]
    omega

theorem findFrom_spec (hb : 0 < t.base) (cmp : κ → κ → Int) (k : κ) (m : Mem κ) : ∀ (fuel : Nat) (T : Tree Nat)
    (ctx : Ctx Nat), Rbt.height T < fuel → Rep t key m (plug T ctx) →
    Spec (findFrom t cmp k fuel (pt t (top T))) m fun q m' => m' = m ∧ q = opt t (Rbt.find cmp key k T)
  | 0, _, _, hf, _ => by omega
  | fuel + 1, leaf, ctx, hf, h => by
    unfold findFrom
    refine Spec.bind (sp_isNull hb ?_)
    exact Spec.pure ⟨rfl, rfl⟩
  | fuel + 1, node c l x r, ctx, hf, h => by
    unfold findFrom
    refine Spec.bind (sp_isNull hb ?_)
    rw [if_neg (by simp [top, h.cell.1.1])]
    refine Spec.bind (h.rd ?_)
    simp only [Rbt.height] at hf
    simp only [Rbt.find]
    split
    · exact Spec.pure ⟨rfl, rfl⟩
    · split
      · exact Spec.bind (h.ptrL (findFrom_spec hb cmp k m fuel l (Frame.L c x r :: ctx) (by omega) h))
      · exact Spec.bind (h.ptrR (findFrom_spec hb cmp k m fuel r (Frame.R c l x :: ctx) (by omega) h))

theorem find_spec (hb : 0 < t.base) (cmp : κ → κ → Int) (k : κ) {m : Mem κ} {fuel : Nat} {w : Tree Nat}
    (hf : Rbt.height w < fuel) (h : Rep t key m w) :
    Spec (find t cmp fuel k) m fun q m' => m' = m ∧ q = opt t (Rbt.find cmp key k w) :=
  root_ptr h (findFrom_spec hb cmp k m fuel w [] hf h)

theorem glbFrom_spec (hb : 0 < t.base) (cmp : κ → κ → Int) (k : κ) (m : Mem κ) : ∀ (fuel : Nat) (T : Tree Nat)
    (ctx : Ctx Nat) (acc : Option Nat), Rbt.height T < fuel → Rep t key m (plug T ctx) →
    Spec (glbFrom t cmp k fuel (pt t (top T)) (opt t acc)) m fun q m' => m' = m ∧
      q = opt t (Rbt.findGlbLoop cmp key k T acc)
  | 0, _, _, _, hf, _ => by omega
  | fuel + 1, leaf, ctx, acc, hf, h => by
    unfold glbFrom
    refine Spec.bind (sp_isNull hb ?_)
    exact Spec.pure ⟨rfl, rfl⟩
  | fuel + 1, node c l x r, ctx, acc, hf, h => by
    unfold glbFrom
    refine Spec.bind (sp_isNull hb ?_)
    rw [if_neg (by simp [top, h.cell.1.1])]
    refine Spec.bind (h.rd ?_)
    simp only [Rbt.height] at hf
    simp only [Rbt.findGlbLoop]
    split
    · exact Spec.pure ⟨rfl, rfl⟩
    · split
      · exact Spec.bind (h.ptrL (glbFrom_spec hb cmp k m fuel l (Frame.L c x r :: ctx) acc (by omega) h))
      · exact Spec.bind (h.ptrR (glbFrom_spec hb cmp k m fuel r (Frame.R c l x :: ctx) (some x) (by omega) h))

theorem glb_spec (hb : 0 < t.base) (cmp : κ → κ → Int) (k : κ) {m : Mem κ} {fuel : Nat} {w : Tree Nat}
    (hf : Rbt.height w < fuel) (h : Rep t key m w) :
    Spec (findGlb t cmp fuel k) m fun q m' => m' = m ∧ q = opt t (Rbt.findGlb cmp key k w) :=
  root_ptr (f := fun r => glbFrom t cmp k fuel r null) h (glbFrom_spec hb cmp k m fuel w [] none hf h)

theorem lubFrom_spec (hb : 0 < t.base) (cmp : κ → κ → Int) (k : κ) (m : Mem κ) : ∀ (fuel : Nat) (T : Tree Nat)
    (ctx : Ctx Nat) (acc : Option Nat), Rbt.height T < fuel → Rep t key m (plug T ctx) →
    Spec (lubFrom t cmp k fuel (pt t (top T)) (opt t acc)) m fun q m' => m' = m ∧
      q = opt t (Rbt.findLubLoop cmp key k T acc)
  | 0, _, _, _, hf, _ => by omega
  | fuel + 1, leaf, ctx, acc, hf, h => by
    unfold lubFrom
    refine Spec.bind (sp_isNull hb ?_)
    exact Spec.pure ⟨rfl, rfl⟩
  | fuel + 1, node c l x r, ctx, acc, hf, h => by
    unfold lubFrom
    refine Spec.bind (sp_isNull hb ?_)
    rw [if_neg (by simp [top, h.cell.1.1])]
    refine Spec.bind (h.rd ?_)
    simp only [Rbt.height] at hf
    simp only [Rbt.findLubLoop]
    split
    · exact Spec.pure ⟨rfl, rfl⟩
    · split
      · exact Spec.bind (h.ptrR (lubFrom_spec hb cmp k m fuel r (Frame.R c l x :: ctx) acc (by omega) h))
      · exact Spec.bind (h.ptrL (lubFrom_spec hb cmp k m fuel l (Frame.L c x r :: ctx) (some x) (by omega) h))

theorem lub_spec (hb : 0 < t.base) (cmp : κ → κ → Int) (k : κ) {m : Mem κ} {fuel : Nat} {w : Tree Nat}
    (hf : Rbt.height w < fuel) (h : Rep t key m w) :
    Spec (findLub t cmp fuel k) m fun q m' => m' = m ∧ q = opt t (Rbt.findLub cmp key k w) :=
  root_ptr (f := fun r => lubFrom t cmp k fuel r null) h (lubFrom_spec hb cmp k m fuel w [] none hf h)

theorem minFrom_spec (hb : 0 < t.base) (m : Mem κ) : ∀ (fuel : Nat) (T : Tree Nat) (ctx : Ctx Nat),
    Rbt.height T < fuel → Rep t key m (plug T ctx) →
    Spec (minFrom t fuel (pt t (top T))) m fun q m' => m' = m ∧ q = opt t (Rbt.min? T)
  | 0, _, _, hf, _ => by omega
  | fuel + 1, leaf, ctx, hf, h => by
    unfold minFrom
    refine Spec.bind (sp_isNull hb ?_)
    exact Spec.pure ⟨rfl, rfl⟩
  | fuel + 1, node c leaf x r, ctx, hf, h => by
    unfold minFrom
    refine Spec.bind (sp_isNull hb ?_)
    rw [if_neg (by simp [top, h.cell.1.1])]
    refine Spec.bind (h.leftP ?_)
    refine Spec.bind (sp_isNull hb ?_)
    exact Spec.pure ⟨rfl, rfl⟩
  | fuel + 1, node c (node c' l' x' r') x r, ctx, hf, h => by
    have h' : Rep t key m (plug (node c' l' x' r') (Frame.L c x r :: ctx)) := h
    unfold minFrom
    refine Spec.bind (sp_isNull hb ?_)
    rw [if_neg (by simp [top, h.cell.1.1])]
    refine Spec.bind (h.leftP ?_)
    refine Spec.bind (sp_isNull hb ?_)
    rw [if_neg (by simp [top, h'.cell.1.1])]
    rw [Rbt.min?]
    refine minFrom_spec hb m fuel (node c' l' x' r') (Frame.L c x r :: ctx) ?_ h
    simp only [Rbt.height] at hf ⊢
    omega

theorem maxFrom_spec (hb : 0 < t.base) (m : Mem κ) : ∀ (fuel : Nat) (T : Tree Nat) (ctx : Ctx Nat),
    Rbt.height T < fuel → Rep t key m (plug T ctx) →
    Spec (maxFrom t fuel (pt t (top T))) m fun q m' => m' = m ∧ q = opt t (Rbt.max? T)
  | 0, _, _, hf, _ => by omega
  | fuel + 1, leaf, ctx, hf, h => by
    unfold maxFrom
    refine Spec.bind (sp_isNull hb ?_)
    exact Spec.pure ⟨rfl, rfl⟩
  | fuel + 1, node c l x leaf, ctx, hf, h => by
    unfold maxFrom
    refine Spec.bind (sp_isNull hb ?_)
    rw [if_neg (by simp [top, h.cell.1.1])]
    refine Spec.bind (h.rightP ?_)
    refine Spec.bind (sp_isNull hb ?_)
    exact Spec.pure ⟨rfl, rfl⟩
  | fuel + 1, node c l x (node c' l' x' r'), ctx, hf, h => by
    have h' : Rep t key m (plug (node c' l' x' r') (Frame.R c l x :: ctx)) := h
    unfold maxFrom
    refine Spec.bind (sp_isNull hb ?_)
    rw [if_neg (by simp [top, h.cell.1.1])]
    refine Spec.bind (h.rightP ?_)
    refine Spec.bind (sp_isNull hb ?_)
    rw [if_neg (by simp [top, h'.cell.1.1])]
    rw [Rbt.max?]
    refine maxFrom_spec hb m fuel (node c' l' x' r') (Frame.R c l x :: ctx) ?_ h
    simp only [Rbt.height] at hf ⊢
    omega

theorem min_spec (hb : 0 < t.base) {m : Mem κ} {fuel : Nat} {w : Tree Nat}
    (hf : Rbt.height w < fuel) (h : Rep t key m w) :
    Spec (min t fuel) m fun q m' => m' = m ∧ q = opt t (Rbt.min? w) :=
  root_ptr h (minFrom_spec hb m fuel w [] hf h)

theorem max_spec (hb : 0 < t.base) {m : Mem κ} {fuel : Nat} {w : Tree Nat}
    (hf : Rbt.height w < fuel) (h : Rep t key m w) :
    Spec (max t fuel) m fun q m' => m' = m ∧ q = opt t (Rbt.max? w) :=
  root_ptr h (maxFrom_spec hb m fuel w [] hf h)

theorem upRight_spec (hb : 0 < t.base) (m : Mem κ) : ∀ (fuel : Nat) (c : Color) (l r : Tree Nat) (x : Nat)
    (ctx : Ctx Nat), ctx.length < fuel → Rep t key m (plug (node c l x r) ctx) →
    Spec (upRight t fuel (pt t x)) m fun q m' => m' = m ∧ q = opt t (Rbt.climbSucc ctx)
  | 0, _, _, _, _, _, hf, _ => by omega
  | fuel + 1, c, l, r, x, [], hf, h => by
    unfold upRight
    refine Spec.bind (h.parentP ?_)
    refine Spec.bind (sp_isNull hb ?_)
    exact Spec.pure ⟨rfl, rfl⟩
  | fuel + 1, c, l, r, x, Frame.L pc px ps :: ctx, hf, h => by
    have h' : Rep t key m (plug (node pc (node c l x r) px ps) ctx) := h
    unfold upRight
    refine Spec.bind (h.parentP ?_)
    refine Spec.bind (sp_isNull hb ?_)
    rw [if_neg (by simp [parOf, h'.cell.1.1])]
    refine Spec.bind (h'.rightP ?_)
    refine Spec.bind (sp_eqP hb ?_)
    rw [if_neg (by simp [h.sibL.symm])]
    exact Spec.pure ⟨rfl, rfl⟩
  | fuel + 1, c, l, r, x, Frame.R pc ps px :: ctx, hf, h => by
    have h' : Rep t key m (plug (node pc ps px (node c l x r)) ctx) := h
    unfold upRight
    refine Spec.bind (h.parentP ?_)
    refine Spec.bind (sp_isNull hb ?_)
    rw [if_neg (by simp [parOf, h'.cell.1.1])]
    refine Spec.bind (h'.rightP ?_)
    refine Spec.bind (sp_eqP hb ?_)
    rw [if_pos (by simp [top])]
    exact upRight_spec hb m fuel pc ps _ px ctx (by simp only [List.length_cons] at hf; omega) h'

theorem upLeft_spec (hb : 0 < t.base) (m : Mem κ) : ∀ (fuel : Nat) (c : Color) (l r : Tree Nat) (x : Nat)
    (ctx : Ctx Nat), ctx.length < fuel → Rep t key m (plug (node c l x r) ctx) →
    Spec (upLeft t fuel (pt t x)) m fun q m' => m' = m ∧ q = opt t (Rbt.climbPred ctx)
  | 0, _, _, _, _, _, hf, _ => by omega
  | fuel + 1, c, l, r, x, [], hf, h => by
    unfold upLeft
    refine Spec.bind (h.parentP ?_)
    refine Spec.bind (sp_isNull hb ?_)
    exact Spec.pure ⟨rfl, rfl⟩
  | fuel + 1, c, l, r, x, Frame.R pc ps px :: ctx, hf, h => by
    have h' : Rep t key m (plug (node pc ps px (node c l x r)) ctx) := h
    unfold upLeft
    refine Spec.bind (h.parentP ?_)
    refine Spec.bind (sp_isNull hb ?_)
    rw [if_neg (by simp [parOf, h'.cell.1.1])]
    refine Spec.bind (h'.leftP ?_)
    refine Spec.bind (sp_eqP hb ?_)
    rw [if_neg (by simp [h.sibR.symm])]
    exact Spec.pure ⟨rfl, rfl⟩
  | fuel + 1, c, l, r, x, Frame.L pc px ps :: ctx, hf, h => by
    have h' : Rep t key m (plug (node pc (node c l x r) px ps) ctx) := h
    unfold upLeft
    refine Spec.bind (h.parentP ?_)
    refine Spec.bind (sp_isNull hb ?_)
    rw [if_neg (by simp [parOf, h'.cell.1.1])]
    refine Spec.bind (h'.leftP ?_)
    refine Spec.bind (sp_eqP hb ?_)
    rw [if_pos (by simp [top])]
    exact upLeft_spec hb m fuel pc _ ps px ctx (by simp only [List.length_cons] at hf; omega) h'

theorem succ_spec (hb : 0 < t.base) {m : Mem κ} {fuel : Nat} {w : Tree Nat} {x : Nat} {o : Option Nat}
    (hf : (traverse w).length < fuel) (h : Rep t key m w) (hw : Rbt.succ w x = some o) :
    Spec (succ t fuel (pt t x)) m fun q m' => m' = m ∧ q = opt t o := by
  unfold Rbt.succ at hw
  cases hloc : Rbt.locate x w [] with
  | none => rw [hloc] at hw; cases hw
  | some v =>
    obtain ⟨c, l, r, ctx⟩ := v
    rw [hloc] at hw
    obtain ⟨up, e, hp⟩ := Rbt.locate_ok hloc
    rw [List.append_nil] at e
    subst e
    rw [← hp] at h hf
    unfold succ
    refine Spec.bind (h.rd ?_)
    cases r with
    | leaf =>
      simp only [Option.some.injEq] at hw
      subst hw
      rw [if_neg (by simp [top])]
      have hlen := ctx_length (node c l x leaf) ctx
      cases ctx with
      | nil => exact Spec.pure ⟨rfl, rfl⟩
      | cons f ctx =>
        have hpo : parOf (f :: ctx) ≠ 0 := by cases f <;> exact h.split.2.1.1
        rw [if_pos (by simp [hpo])]
        exact upRight_spec hb m fuel c l leaf x (f :: ctx) (by omega) h
    | node c' l' x' r' =>
      simp only [Option.some.injEq] at hw
      subst hw
      have h' : Rep t key m (plug (node c' l' x' r') (Frame.R c l x :: ctx)) := h
      rw [if_pos (by simp [top, h'.cell.1.1])]
      refine Spec.bind (h.ptrR (minFrom_spec hb m fuel (node c' l' x' r') (Frame.R c l x :: ctx) (Nat.lt_of_le_of_lt (height_le _) ?_) h'))
      rw [traverse_plug] at hf
      simp only [traverse, List.length_append, List.length_cons] at hf ⊢
      omega

theorem pred_spec (hb : 0 < t.base) {m : Mem κ} {fuel : Nat} {w : Tree Nat} {x : Nat} {o : Option Nat}
    (hf : (traverse w).length < fuel) (h : Rep t key m w) (hw : Rbt.pred w x = some o) :
    Spec (pred t fuel (pt t x)) m fun q m' => m' = m ∧ q = opt t o := by
  unfold Rbt.pred at hw
  cases hloc : Rbt.locate x w [] with
  | none => rw [hloc] at hw; cases hw
  | some v =>
    obtain ⟨c, l, r, ctx⟩ := v
    rw [hloc] at hw
    obtain ⟨up, e, hp⟩ := Rbt.locate_ok hloc
    rw [List.append_nil] at e
    subst e
    rw [← hp] at h hf
    unfold pred
    refine Spec.bind (h.rd ?_)
    cases l with
    | leaf =>
      simp only [Option.some.injEq] at hw
      subst hw
      rw [if_neg (by simp [top])]
      have hlen := ctx_length (node c leaf x r) ctx
      cases ctx with
      | nil => exact Spec.pure ⟨rfl, rfl⟩
      | cons f ctx =>
        have hpo : parOf (f :: ctx) ≠ 0 := by cases f <;> exact h.split.2.1.1
        rw [if_pos (by simp [hpo])]
        exact upLeft_spec hb m fuel c leaf r x (f :: ctx) (by omega) h
    | node c' l' x' r' =>
      simp only [Option.some.injEq] at hw
      subst hw
      have h' : Rep t key m (plug (node c' l' x' r') (Frame.L c x r :: ctx)) := h
      rw [if_pos (by simp [top, h'.cell.1.1])]
      refine Spec.bind (h.ptrL (maxFrom_spec hb m fuel (node c' l' x' r') (Frame.L c x r :: ctx) (Nat.lt_of_le_of_lt (height_le _) ?_) h'))
      rw [traverse_plug] at hf
      simp only [traverse, List.length_append, List.length_cons] at hf ⊢
      omega

end Verif.Rrbt
