import Verif.Rbt.Spec

/-! Helper lemmas for the red-black tree; the property theorems are in `Verif.Rbt.Props`. -/

namespace Verif.Rbt

set_option linter.unusedSimpArgs false

open Color Tree

variable {α κ : Type}

/-! ## In-order listing and contexts -/

/-- elements left of the hole -/
def ctxL : Ctx α → List α
  | [] => []
  | Frame.L _ _ _ :: ctx => ctxL ctx
  | Frame.R _ l x :: ctx => ctxL ctx ++ traverse l ++ [x]

/-- elements right of the hole -/
def ctxR : Ctx α → List α
  | [] => []
  | Frame.L _ x r :: ctx => x :: (traverse r ++ ctxR ctx)
  | Frame.R _ _ _ :: ctx => ctxR ctx

theorem traverse_plug (t : Tree α) (ctx : Ctx α) :
    traverse (plug t ctx) = ctxL ctx ++ traverse t ++ ctxR ctx := by
  induction ctx generalizing t with
  | nil => simp [plug, ctxL, ctxR]
  | cons f ctx ih =>
    cases f <;> simp [plug, ctxL, ctxR, ih, traverse, List.append_assoc]

theorem plug_append (t : Tree α) (a b : Ctx α) : plug t (a ++ b) = plug (plug t a) b := by
  induction a generalizing t with
  | nil => rfl
  | cons f a ih => cases f <;> simp [plug, ih]

@[simp] theorem traverse_blacken (t : Tree α) : traverse (blacken t) = traverse t := by
  cases t <;> rfl

theorem traverse_setColor {c : Color} {t t' : Tree α} (h : setColor c t = some t') :
    traverse t' = traverse t := by
  cases t <;> simp [setColor] at h
  subst h; rfl

theorem traverse_rotateLeft {t t' : Tree α} (h : rotateLeft t = some t') :
    traverse t' = traverse t := by
  unfold rotateLeft at h
  split at h <;> simp at h
  subst h; simp [traverse]

theorem traverse_rotateRight {t t' : Tree α} (h : rotateRight t = some t') :
    traverse t' = traverse t := by
  unfold rotateRight at h
  split at h <;> simp at h
  subst h; simp [traverse]

/-! ## Red-black invariant -/

/-- `RB c n t`: root colour `c`, black height `n`, no red-red. -/
inductive RB : Color → Nat → Tree α → Prop where
  | leaf : RB black 0 leaf
  | red {n l x r} : RB black n l → RB black n r → RB red n (node red l x r)
  | black {n l x r cl cr} : RB cl n l → RB cr n r → RB black (n + 1) (node black l x r)

/-- `CtxRB c n ctx`: plugging a tree with root colour `c` and black height `n` gives a red-black
tree with a black root. -/
inductive CtxRB : Color → Nat → Ctx α → Prop where
  | nil {n} : CtxRB black n []
  | redL {n x r ctx} : RB black n r → CtxRB red n ctx → CtxRB black n (Frame.L red x r :: ctx)
  | redR {n x l ctx} : RB black n l → CtxRB red n ctx → CtxRB black n (Frame.R red l x :: ctx)
  | blackL {c n x r cr ctx} : RB cr n r → CtxRB black (n + 1) ctx →
      CtxRB c n (Frame.L black x r :: ctx)
  | blackR {c n x l cl ctx} : RB cl n l → CtxRB black (n + 1) ctx →
      CtxRB c n (Frame.R black l x :: ctx)

theorem RB.color_eq {c : Color} {n : Nat} {t : Tree α} (h : RB c n t) : color t = c := by
  cases h <;> rfl

theorem CtxRB.toBlack {c : Color} {n : Nat} {ctx : Ctx α} (h : CtxRB c n ctx) :
    CtxRB black n ctx := by
  cases h with
  | nil => exact .nil
  | redL a b => exact .redL a b
  | redR a b => exact .redR a b
  | blackL a b => exact .blackL a b
  | blackR a b => exact .blackR a b

theorem plug_rb {c : Color} {n : Nat} {t : Tree α} {ctx : Ctx α} (h : RB c n t)
    (hc : CtxRB c n ctx) : ∃ m, RB black m (plug t ctx) := by
  induction ctx generalizing c n t with
  | nil => cases hc; exact ⟨n, h⟩
  | cons f ctx ih =>
    cases hc with
    | redL a b => exact ih (.red h a) b
    | redR a b => exact ih (.red a h) b
    | blackL a b => exact ih (.black h a) b
    | blackR a b => exact ih (.black a h) b

theorem blacken_of_black {n : Nat} {t : Tree α} (h : RB black n t) : blacken t = t := by
  cases h <;> rfl

theorem blacken_rb {c : Color} {n : Nat} {t : Tree α} (h : RB c n t) :
    ∃ m, RB black m (blacken t) := by
  cases h with
  | leaf => exact ⟨0, .leaf⟩
  | red a b => exact ⟨_, .black a b⟩
  | black a b => exact ⟨_, .black a b⟩

theorem unplug_rb {n : Nat} {t : Tree α} {ctx : Ctx α} (h : RB black n (plug t ctx)) :
    ∃ c m, RB c m t ∧ CtxRB c m ctx := by
  induction ctx generalizing t n with
  | nil => exact ⟨_, _, h, .nil⟩
  | cons f ctx ih =>
    cases f with
    | L cf x r =>
      obtain ⟨c, m, h1, h2⟩ := ih h
      cases h1 with
      | red a b => exact ⟨_, _, a, .redL b h2⟩
      | black a b => exact ⟨_, _, a, .blackL b h2⟩
    | R cf l x =>
      obtain ⟨c, m, h1, h2⟩ := ih h
      cases h1 with
      | red a b => exact ⟨_, _, b, .redR a h2⟩
      | black a b => exact ⟨_, _, b, .blackR a h2⟩

/-! ## Insertion -/

theorem insFix_ok {n : Nat} {t : Tree α} {ctx : Ctx α} (h : RB red n t) (hc : CtxRB black n ctx) :
    ∃ t' m, insFix t ctx = some t' ∧ RB black m t' ∧ traverse t' = traverse (plug t ctx) := by
  induction hl : ctx.length using Nat.strongRecOn generalizing n t ctx with
  | _ k ih =>
    cases hc with
    | nil =>
      obtain ⟨m, hm⟩ := blacken_rb h
      exact ⟨_, m, by rw [insFix], hm, by simp [plug]⟩
    | @blackL _ _ x r cr ctx a b =>
      obtain ⟨m, hm⟩ := plug_rb h (CtxRB.blackL (c := red) (x := x) a b)
      refine ⟨_, m, by rw [insFix], ?_, by simp⟩
      rw [blacken_of_black hm]; exact hm
    | @blackR _ _ x r cr ctx a b =>
      obtain ⟨m, hm⟩ := plug_rb h (CtxRB.blackR (c := red) (x := x) a b)
      refine ⟨_, m, by rw [insFix], ?_, by simp⟩
      rw [blacken_of_black hm]; exact hm
    | @redL _ px ps ctx a b =>
      cases b with
      | @blackL _ _ gx u cu rest hu hr =>
        cases hu with
        | leaf =>
          obtain ⟨m, hm⟩ := plug_rb (RB.black (x := px) h (RB.red (x := gx) a .leaf)) hr
          refine ⟨_, m, by simp [insFix, color, rotateRight]; rfl, ?_, ?_⟩
          · rw [blacken_of_black hm]; exact hm
          · simp [plug, traverse_plug, traverse]
        | @black n' ul ux ur _ _ h1 h2 =>
          obtain ⟨m, hm⟩ := plug_rb (RB.black (x := px) h (RB.red (x := gx) a (.black (x := ux) h1 h2))) hr
          refine ⟨_, m, by simp [insFix, color, rotateRight]; rfl, ?_, ?_⟩
          · rw [blacken_of_black hm]; exact hm
          · simp [plug, traverse_plug, traverse]
        | @red _ ul ux ur h1 h2 =>
          have hn : RB red (n+1) (node red (node black t px ps) gx (node black ul ux ur)) :=
            .red (.black h a) (.black h1 h2)
          obtain ⟨t', m, e, hm, ht⟩ := ih rest.length (by simp at hl; omega) hn hr rfl
          refine ⟨t', m, by simp [insFix, color, blacken]; exact e, hm, ?_⟩
          rw [ht]; simp [plug, traverse_plug, traverse]
      | @blackR _ _ gx u cu rest hu hr =>
        cases h with
        | @red _ xa x xb ha hb =>
        cases hu with
        | leaf =>
          obtain ⟨m, hm⟩ := plug_rb (RB.black (x := x) (RB.red (x := gx) .leaf ha) (RB.red (x := px) hb a)) hr
          refine ⟨_, m, by simp [insFix, color, rotateRight, rotateLeft, setColor]; rfl, ?_, ?_⟩
          · rw [blacken_of_black hm]; exact hm
          · simp [plug, traverse_plug, traverse]
        | @black n' ul ux ur _ _ h1 h2 =>
          obtain ⟨m, hm⟩ := plug_rb (RB.black (x := x) (RB.red (x := gx) (.black (x := ux) h1 h2) ha) (RB.red (x := px) hb a)) hr
          refine ⟨_, m, by simp [insFix, color, rotateRight, rotateLeft, setColor]; rfl, ?_, ?_⟩
          · rw [blacken_of_black hm]; exact hm
          · simp [plug, traverse_plug, traverse]
        | @red _ ul ux ur h1 h2 =>
          have hn : RB red (n+1) (node red (node black ul ux ur) gx (node black (node red xa x xb) px ps)) :=
            .red (.black h1 h2) (.black (.red ha hb) a)
          obtain ⟨t', m, e, hm, ht⟩ := ih rest.length (by simp at hl; omega) hn hr rfl
          refine ⟨t', m, by simp [insFix, color, blacken]; exact e, hm, ?_⟩
          rw [ht]; simp [plug, traverse_plug, traverse]
    | @redR _ px ps ctx a b =>
      cases b with
      | @blackR _ _ gx u cu rest hu hr =>
        cases hu with
        | leaf =>
          obtain ⟨m, hm⟩ := plug_rb (RB.black (x := px) (RB.red (x := gx) .leaf a) h) hr
          refine ⟨_, m, by simp [insFix, color, rotateLeft]; rfl, ?_, ?_⟩
          · rw [blacken_of_black hm]; exact hm
          · simp [plug, traverse_plug, traverse]
        | @black n' ul ux ur _ _ h1 h2 =>
          obtain ⟨m, hm⟩ := plug_rb (RB.black (x := px) (RB.red (x := gx) (.black (x := ux) h1 h2) a) h) hr
          refine ⟨_, m, by simp [insFix, color, rotateLeft]; rfl, ?_, ?_⟩
          · rw [blacken_of_black hm]; exact hm
          · simp [plug, traverse_plug, traverse]
        | @red _ ul ux ur h1 h2 =>
          have hn : RB red (n+1) (node red (node black ul ux ur) gx (node black ps px t)) :=
            .red (.black h1 h2) (.black a h)
          obtain ⟨t', m, e, hm, ht⟩ := ih rest.length (by simp at hl; omega) hn hr rfl
          refine ⟨t', m, by simp [insFix, color, blacken]; exact e, hm, ?_⟩
          rw [ht]; simp [plug, traverse_plug, traverse]
      | @blackL _ _ gx u cu rest hu hr =>
        cases h with
        | @red _ xa x xb ha hb =>
        cases hu with
        | leaf =>
          obtain ⟨m, hm⟩ := plug_rb (RB.black (x := x) (RB.red (x := px) a ha) (RB.red (x := gx) hb .leaf)) hr
          refine ⟨_, m, by simp [insFix, color, rotateRight, rotateLeft, setColor]; rfl, ?_, ?_⟩
          · rw [blacken_of_black hm]; exact hm
          · simp [plug, traverse_plug, traverse]
        | @black n' ul ux ur _ _ h1 h2 =>
          obtain ⟨m, hm⟩ := plug_rb (RB.black (x := x) (RB.red (x := px) a ha) (RB.red (x := gx) hb (.black (x := ux) h1 h2))) hr
          refine ⟨_, m, by simp [insFix, color, rotateRight, rotateLeft, setColor]; rfl, ?_, ?_⟩
          · rw [blacken_of_black hm]; exact hm
          · simp [plug, traverse_plug, traverse]
        | @red _ ul ux ur h1 h2 =>
          have hn : RB red (n+1) (node red (node black ps px (node red xa x xb)) gx (node black ul ux ur)) :=
            .red (.black a (.red ha hb)) (.black h1 h2)
          obtain ⟨t', m, e, hm, ht⟩ := ih rest.length (by simp at hl; omega) hn hr rfl
          refine ⟨t', m, by simp [insFix, color, blacken]; exact e, hm, ?_⟩
          rw [ht]; simp [plug, traverse_plug, traverse]

theorem descend_plug (cmp : κ → κ → Int) (key : α → κ) (k : κ) (t : Tree α) (ctx : Ctx α) :
    plug leaf (descend cmp key k t ctx) = plug t ctx := by
  induction t generalizing ctx with
  | leaf => rfl
  | node c l x r ihl ihr =>
    unfold descend
    split
    · rw [ihl]; rfl
    · rw [ihr]; rfl

/-- what is left and right of the insertion point -/
theorem descend_sides {cmp : κ → κ → Int} (hlaw : LawfulCmp cmp) {key : α → κ} {k : κ} :
    ∀ (t : Tree α) (ctx : Ctx α), Sorted cmp key (traverse t) →
      ctxL (descend cmp key k t ctx) =
        ctxL ctx ++ (traverse t).filter (fun y => ¬ 0 < cmp (key y) k) ∧
      ctxR (descend cmp key k t ctx) =
        (traverse t).filter (fun y => 0 < cmp (key y) k) ++ ctxR ctx := by
  intro t
  induction t with
  | leaf => intro ctx _; simp [descend, traverse]
  | node c l x r ihl ihr =>
    intro ctx hs
    have hs' := hs
    unfold Sorted at hs
    simp only [traverse] at hs
    rw [List.pairwise_append] at hs
    obtain ⟨hl, hxr, hlx⟩ := hs
    rw [List.pairwise_cons] at hxr
    obtain ⟨hx, hr⟩ := hxr
    unfold descend
    by_cases hc : cmp (key x) k > 0
    · rw [if_pos hc]
      obtain ⟨e1, e2⟩ := ihl (Frame.L c x r :: ctx) hl
      have hall : ∀ y ∈ traverse r, 0 < cmp (key y) k := by
        intro y hy
        have h1 := hx y hy
        apply Classical.byContradiction
        intro hn
        have := hlaw.trans _ _ _ h1 (by omega : cmp (key y) k ≤ 0)
        omega
      have f1 : (traverse r).filter (fun y => decide (0 < cmp (key y) k)) = traverse r := by
        rw [List.filter_eq_self]; intro a ha; simpa using hall a ha
      have f2 : (traverse r).filter (fun y => decide (¬ 0 < cmp (key y) k)) = [] := by
        rw [List.filter_eq_nil_iff]; intro a ha; simpa using hall a ha
      refine ⟨?_, ?_⟩
      · rw [e1]; simp only [traverse, List.filter_append, List.filter_cons, f2]
        simp [ctxL, hc]
      · rw [e2]; simp only [traverse, List.filter_append, List.filter_cons, f1]
        simp [ctxR, hc]
    · rw [if_neg hc]
      obtain ⟨e1, e2⟩ := ihr (Frame.R c l x :: ctx) hr
      have hall : ∀ y ∈ traverse l, ¬ 0 < cmp (key y) k := by
        intro y hy hpos
        have h1 := hlx y hy x (by simp)
        have := hlaw.trans _ _ _ h1 (by omega : cmp (key x) k ≤ 0)
        omega
      have f1 : (traverse l).filter (fun y => decide (0 < cmp (key y) k)) = [] := by
        rw [List.filter_eq_nil_iff]; intro a ha; simpa using hall a ha
      have f2 : (traverse l).filter (fun y => decide (¬ 0 < cmp (key y) k)) = traverse l := by
        rw [List.filter_eq_self]; intro a ha; simpa using hall a ha
      refine ⟨?_, ?_⟩
      · rw [e1]; simp only [traverse, List.filter_append, List.filter_cons, f2]
        simp [ctxL, hc]
      · rw [e2]; simp only [traverse, List.filter_append, List.filter_cons, f1]
        simp [ctxR, hc]

/-- Every hole of the context left by `descend` is a leaf: black height 0 below it. -/
theorem ins_rb (cmp : κ → κ → Int) (key : α → κ) (t : Rbt α) (x : α) {n : Nat}
    (h : RB black n t.root) :
    ∃ t' m, ins cmp key t x = some t' ∧ RB black m t'.root ∧ t'.card = t.card + 1 ∧
      traverse t'.root =
        ctxL (descend cmp key (key x) t.root []) ++ x :: ctxR (descend cmp key (key x) t.root []) := by
  unfold ins
  split
  · rename_i heq
    refine ⟨_, 1, rfl, .black .leaf .leaf, rfl, ?_⟩
    simp [heq, traverse, descend, ctxL, ctxR]
  · rename_i c l y r heq
    rw [heq] at h
    have hp := descend_plug cmp key (key x) (node c l y r) []
    rw [show plug (node c l y r) [] = node c l y r from rfl] at hp
    rw [← hp] at h
    obtain ⟨c', m, h1, h2⟩ := unplug_rb h
    have hn : RB red m (node red leaf x leaf) := by
      cases h1; exact .red .leaf .leaf
    obtain ⟨t', m', e, hm, ht⟩ := insFix_ok hn h2.toBlack
    rw [e]
    refine ⟨_, m', rfl, hm, rfl, ?_⟩
    rw [ht, traverse_plug, heq]; simp [traverse]

theorem mem_insertSorted {cmp : κ → κ → Int} {key : α → κ} {x y : α} {l : List α} :
    y ∈ insertSorted cmp key x l ↔ y = x ∨ y ∈ l := by
  unfold insertSorted
  simp only [List.mem_append, List.mem_cons, List.mem_filter, decide_eq_true_eq]
  by_cases h : 0 < cmp (key y) (key x) <;> simp [h] <;> grind

theorem perm_insertSorted {cmp : κ → κ → Int} {key : α → κ} {x : α} {l : List α} :
    (insertSorted cmp key x l).Perm (x :: l) := by
  unfold insertSorted
  refine List.perm_middle.trans (List.Perm.cons _ ?_)
  have := List.filter_append_perm (fun y => decide (¬ 0 < cmp (key y) (key x))) l
  have e : (fun y => !decide (¬ 0 < cmp (key y) (key x))) =
      fun y => decide (0 < cmp (key y) (key x)) := by
    funext y; by_cases h : 0 < cmp (key y) (key x) <;> simp [h]
  rw [e] at this
  exact this

theorem sorted_insertSorted {cmp : κ → κ → Int} (hlaw : LawfulCmp cmp) {key : α → κ} {x : α}
    {l : List α} (h : Sorted cmp key l) : Sorted cmp key (insertSorted cmp key x l) := by
  unfold Sorted insertSorted at *
  rw [List.pairwise_append]
  refine ⟨h.filter _, ?_, ?_⟩
  · rw [List.pairwise_cons]
    refine ⟨?_, h.filter _⟩
    intro a ha
    simp only [List.mem_filter, decide_eq_true_eq] at ha
    have := (hlaw.anti _ _).1 ha.2
    omega
  · intro a ha b hb
    simp only [List.mem_filter, decide_eq_true_eq] at ha
    simp only [List.mem_cons, List.mem_filter, decide_eq_true_eq] at hb
    rcases hb with rfl | hb
    · omega
    · have h1 := (hlaw.anti _ _).1 hb.2
      exact hlaw.trans _ _ _ (by omega : cmp (key a) (key x) ≤ 0) (by omega)

theorem ins_spec {cmp : κ → κ → Int} (hlaw : LawfulCmp cmp) (key : α → κ) (t : Rbt α) (x : α)
    {n : Nat} (h : RB black n t.root) (hs : Sorted cmp key (traverse t.root)) :
    ∃ t' m, ins cmp key t x = some t' ∧ RB black m t'.root ∧ t'.card = t.card + 1 ∧
      traverse t'.root = insertSorted cmp key x (traverse t.root) := by
  obtain ⟨t', m, e, hm, hcard, ht⟩ := ins_rb cmp key t x h
  refine ⟨t', m, e, hm, hcard, ?_⟩
  rw [ht]
  obtain ⟨e1, e2⟩ := descend_sides hlaw (k := key x) t.root [] hs
  rw [e1, e2]; simp [ctxL, ctxR, insertSorted]

/-! ## Deletion -/

theorem case4_ok {c : Color} {n : Nat} {t : Tree α} (h : RB c n t) {px sx : α} {sl sr : Tree α}
    {cl cr : Color} (pc : Color) (hl : RB cl n sl) (hr : RB cr n sr)
    (hne : ¬ (pc = black ∧ cl = black ∧ cr = black)) :
    (∃ t', case4 t (Frame.L pc px (node black sl sx sr)) = some t' ∧
      (∃ c', RB c' (n + (if pc = red then 1 else 2)) t' ∧ (pc = black → c' = black)) ∧
      traverse t' = traverse (node pc t px (node black sl sx sr))) ∧
    (∃ t', case4 t (Frame.R pc (node black sl sx sr) px) = some t' ∧
      (∃ c', RB c' (n + (if pc = red then 1 else 2)) t' ∧ (pc = black → c' = black)) ∧
      traverse t' = traverse (node pc (node black sl sx sr) px t)) := by
  have el := hl.color_eq
  have er := hr.color_eq
  cases pc with
  | red =>
    cases hl with
    | leaf =>
      cases hr with
      | leaf =>
        exact ⟨⟨_, rfl, ⟨_, .black h (.red .leaf .leaf), by simp⟩, by simp [traverse]⟩,
          ⟨_, rfl, ⟨_, .black (.red .leaf .leaf) h, by simp⟩, by simp [traverse]⟩⟩
      | red a b =>
        refine ⟨⟨_, rfl, ⟨_, .red (.black h .leaf) (.black a b), by simp⟩, by simp [traverse]⟩,
          ⟨_, rfl, ⟨_, .red (.black .leaf a) (.black b h), by simp⟩, by simp [traverse]⟩⟩
    | red a' b' =>
      cases hr with
      | leaf =>
        exact ⟨⟨_, rfl, ⟨_, .red (.black h a') (.black b' .leaf), by simp⟩, by simp [traverse]⟩,
          ⟨_, rfl, ⟨_, .red (.black a' b') (.black .leaf h), by simp⟩, by simp [traverse]⟩⟩
      | red a b =>
        exact ⟨⟨_, rfl, ⟨_, .red (.black h (.red a' b')) (.black a b), by simp⟩, by simp [traverse]⟩,
          ⟨_, rfl, ⟨_, .red (.black a' b') (.black (.red a b) h), by simp⟩, by simp [traverse]⟩⟩
      | black a b =>
        exact ⟨⟨_, rfl, ⟨_, .red (.black h a') (.black b' (.black a b)), by simp⟩, by simp [traverse]⟩,
          ⟨_, rfl, ⟨_, .red (.black a' b') (.black (.black a b) h), by simp⟩, by simp [traverse]⟩⟩
    | black a' b' =>
      cases hr with
      | red a b =>
        exact ⟨⟨_, rfl, ⟨_, .red (.black h (.black a' b')) (.black a b), by simp⟩, by simp [traverse]⟩,
          ⟨_, rfl, ⟨_, .red (.black (.black a' b') a) (.black b h), by simp⟩, by simp [traverse]⟩⟩
      | black a b =>
        exact ⟨⟨_, rfl, ⟨_, .black h (.red (.black a' b') (.black a b)), by simp⟩, by simp [traverse]⟩,
          ⟨_, rfl, ⟨_, .black (.red (.black a' b') (.black a b)) h, by simp⟩, by simp [traverse]⟩⟩
  | black =>
    cases hl with
    | leaf =>
      cases hr with
      | leaf => simp at hne
      | red a b =>
        exact ⟨⟨_, rfl, ⟨_, .black (.black h .leaf) (.black a b), by simp⟩, by simp [traverse]⟩,
          ⟨_, rfl, ⟨_, .black (.black .leaf a) (.black b h), by simp⟩, by simp [traverse]⟩⟩
    | red a' b' =>
      cases hr with
      | leaf =>
        exact ⟨⟨_, rfl, ⟨_, .black (.black h a') (.black b' .leaf), by simp⟩, by simp [traverse]⟩,
          ⟨_, rfl, ⟨_, .black (.black a' b') (.black .leaf h), by simp⟩, by simp [traverse]⟩⟩
      | red a b =>
        exact ⟨⟨_, rfl, ⟨_, .black (.black h (.red a' b')) (.black a b), by simp⟩, by simp [traverse]⟩,
          ⟨_, rfl, ⟨_, .black (.black a' b') (.black (.red a b) h), by simp⟩, by simp [traverse]⟩⟩
      | black a b =>
        exact ⟨⟨_, rfl, ⟨_, .black (.black h a') (.black b' (.black a b)), by simp⟩, by simp [traverse]⟩,
          ⟨_, rfl, ⟨_, .black (.black a' b') (.black (.black a b) h), by simp⟩, by simp [traverse]⟩⟩
    | black a' b' =>
      cases hr with
      | red a b =>
        exact ⟨⟨_, rfl, ⟨_, .black (.black h (.black a' b')) (.black a b), by simp⟩, by simp [traverse]⟩,
          ⟨_, rfl, ⟨_, .black (.black (.black a' b') a) (.black b h), by simp⟩, by simp [traverse]⟩⟩
      | black a b => simp at hne

theorem delFix_ok {c : Color} {n : Nat} {t : Tree α} {ctx : Ctx α} (h : RB c n t)
    (hc : CtxRB black (n + 1) ctx) (hroot : c = black ∨ ctx ≠ []) :
    ∃ t' m, delFix t ctx = some t' ∧ RB black m t' ∧ traverse t' = traverse (plug t ctx) := by
  induction ctx generalizing c n t with
  | nil =>
    rcases hroot with rfl | h'
    · exact ⟨t, n, rfl, h, rfl⟩
    · exact absurd rfl h'
  | cons f rest ih =>
    cases hc with
    | @redL _ px s _ a b =>
      -- parent red: sibling black of height n+1
      cases a with
      | @black _ sl sx sr cl cr hl hr =>
      obtain ⟨⟨t', e, ⟨c', hrb, _⟩, ht⟩, _⟩ := case4_ok h (px := px) (sx := sx) red hl hr (by simp)
      simp only [if_true] at hrb
      obtain ⟨m, hm⟩ : ∃ m, RB black m (plug t' rest) := by
        cases b with
        | blackL p q => exact plug_rb hrb (.blackL p q)
        | blackR p q => exact plug_rb hrb (.blackR p q)
      refine ⟨_, m, by simp [delFix, case3, e], hm, ?_⟩
      rw [traverse_plug, ht]; simp [plug, traverse_plug, traverse]
    | @redR _ px s _ a b =>
      cases a with
      | @black _ sl sx sr cl cr hl hr =>
      obtain ⟨_, ⟨t', e, ⟨c', hrb, _⟩, ht⟩⟩ := case4_ok h (px := px) (sx := sx) red hl hr (by simp)
      simp only [if_true] at hrb
      obtain ⟨m, hm⟩ : ∃ m, RB black m (plug t' rest) := by
        cases b with
        | blackL p q => exact plug_rb hrb (.blackL p q)
        | blackR p q => exact plug_rb hrb (.blackR p q)
      refine ⟨_, m, by simp [delFix, case3, e], hm, ?_⟩
      rw [traverse_plug, ht]; simp [plug, traverse_plug, traverse]
    | @blackL _ _ px s cs _ a b =>
      cases a with
      | @red _ sl sx sr hsl hsr =>
        -- case 2: red sibling
        cases hsl with
        | @black _ sll slx slr cll clr hl hr =>
        obtain ⟨⟨t', e, ⟨c', hrb, _⟩, ht⟩, _⟩ := case4_ok h (px := px) (sx := slx) red hl hr (by simp)
        simp only [if_true] at hrb
        obtain ⟨m, hm⟩ := plug_rb hrb (CtxRB.blackL (c := c') (x := sx) hsr b)
        refine ⟨_, m, by simp [delFix, case3, e], hm, ?_⟩
        rw [traverse_plug, ht]; simp [plug, traverse_plug, traverse, ctxL, ctxR]
      | @black _ sl sx sr cl cr hl hr =>
        by_cases hb : cl = black ∧ cr = black
        · obtain ⟨rfl, rfl⟩ := hb
          have hn : RB black (n + 1) (node black t px (node red sl sx sr)) := .black h (.red hl hr)
          obtain ⟨t', m, e, hm, ht⟩ := ih hn b (Or.inl rfl)
          refine ⟨t', m, ?_, hm, ?_⟩
          · simp [delFix, case3, hl.color_eq, hr.color_eq, e]
          · rw [ht]; simp [plug, traverse_plug, traverse]
        · obtain ⟨⟨t', e, ⟨c', hrb, hcb⟩, ht⟩, _⟩ :=
            case4_ok h (px := px) (sx := sx) black hl hr (by simpa using hb)
          obtain rfl := hcb rfl
          simp only [reduceCtorEq, if_false] at hrb
          obtain ⟨m, hm⟩ := plug_rb hrb b
          refine ⟨_, m, ?_, hm, ?_⟩
          · have : ¬ (color sl = black ∧ color sr = black) := by
              rw [hl.color_eq, hr.color_eq]; exact hb
            simp [delFix, case3, this, e]
          · rw [traverse_plug, ht]; simp [plug, traverse_plug, traverse]
    | @blackR _ _ px s cs _ a b =>
      cases a with
      | @red _ sl sx sr hsl hsr =>
        cases hsr with
        | @black _ sll slx slr cll clr hl hr =>
        obtain ⟨_, ⟨t', e, ⟨c', hrb, _⟩, ht⟩⟩ := case4_ok h (px := px) (sx := slx) red hl hr (by simp)
        simp only [if_true] at hrb
        obtain ⟨m, hm⟩ := plug_rb hrb (CtxRB.blackR (c := c') (x := sx) hsl b)
        refine ⟨_, m, by simp [delFix, case3, e], hm, ?_⟩
        rw [traverse_plug, ht]; simp [plug, traverse_plug, traverse, ctxL, ctxR]
      | @black _ sl sx sr cl cr hl hr =>
        by_cases hb : cl = black ∧ cr = black
        · obtain ⟨rfl, rfl⟩ := hb
          have hn : RB black (n + 1) (node black (node red sl sx sr) px t) := .black (.red hl hr) h
          obtain ⟨t', m, e, hm, ht⟩ := ih hn b (Or.inl rfl)
          refine ⟨t', m, ?_, hm, ?_⟩
          · simp [delFix, case3, hl.color_eq, hr.color_eq, e]
          · rw [ht]; simp [plug, traverse_plug, traverse]
        · obtain ⟨_, ⟨t', e, ⟨c', hrb, hcb⟩, ht⟩⟩ :=
            case4_ok h (px := px) (sx := sx) black hl hr (by simpa using hb)
          obtain rfl := hcb rfl
          simp only [reduceCtorEq, if_false] at hrb
          obtain ⟨m, hm⟩ := plug_rb hrb b
          refine ⟨_, m, ?_, hm, ?_⟩
          · have : ¬ (color sl = black ∧ color sr = black) := by
              rw [hl.color_eq, hr.color_eq]; exact hb
            simp [delFix, case3, this, e]
          · rw [traverse_plug, ht]; simp [plug, traverse_plug, traverse]

theorem delOne_ok {c : Color} {n : Nat} {l r : Tree α} {x : α} {ctx : Ctx α}
    (h : RB c n (node c l x r)) (hc : CtxRB c n ctx) (hone : l = leaf ∨ r = leaf) :
    ∃ t' m, delOne c l r ctx = some t' ∧ RB black m t' ∧
      traverse t' = ctxL ctx ++ traverse l ++ traverse r ++ ctxR ctx := by
  cases h with
  | @red _ _ _ _ hl hr =>
    -- both children are leaves
    have : l = leaf ∧ r = leaf := by
      rcases hone with rfl | rfl
      · cases hl; cases hr; exact ⟨rfl, rfl⟩
      · cases hr; cases hl; exact ⟨rfl, rfl⟩
    obtain ⟨rfl, rfl⟩ := this
    cases hl
    cases hc with
    | blackL a b =>
      obtain ⟨m, hm⟩ := plug_rb (RB.leaf (α := α)) (CtxRB.blackL (c := black) a b)
      exact ⟨_, m, by simp [delOne, replaceNode]; rfl, hm, by simp [traverse_plug, traverse]⟩
    | blackR a b =>
      obtain ⟨m, hm⟩ := plug_rb (RB.leaf (α := α)) (CtxRB.blackR (c := black) a b)
      exact ⟨_, m, by simp [delOne, replaceNode]; rfl, hm, by simp [traverse_plug, traverse]⟩
  | @black n _ _ _ cl cr hl hr =>
    -- the only child and its listing
    obtain ⟨child, cc, hch, hchild, htr⟩ : ∃ child cc, RB cc n child ∧
        onlyChild l r = some child ∧ traverse child = traverse l ++ traverse r := by
      rcases hone with rfl | rfl
      · cases r with
        | leaf => exact ⟨leaf, cl, hl, rfl, rfl⟩
        | node => exact ⟨_, cr, hr, rfl, by simp [traverse]⟩
      · cases l with
        | leaf => exact ⟨leaf, cl, hl, rfl, rfl⟩
        | node => exact ⟨_, cl, hl, rfl, by simp [traverse]⟩
    cases ctx with
    | nil =>
      obtain ⟨m, hm⟩ := blacken_rb hch
      refine ⟨_, m, by simp only [delOne, hchild], hm, ?_⟩
      simp [htr, ctxL, ctxR]
    | cons f rest =>
      obtain ⟨t', m, e, hm, ht⟩ := delFix_ok hch hc (Or.inr (by simp))
      refine ⟨t', m, by simp only [delOne, hchild]; exact e, hm, ?_⟩
      rw [ht, traverse_plug, htr]; simp

theorem findPred_ok {t : Tree α} (hne : t ≠ leaf) :
    ∀ ctx : Ctx α, ∃ c l x below, findPred t ctx = some (c, l, x, below ++ ctx) ∧
      plug (node c l x leaf) below = t ∧ ctxR below = [] := by
  induction t with
  | leaf => exact absurd rfl hne
  | node c l x r _ ihr =>
    intro ctx
    cases r with
    | leaf => exact ⟨c, l, x, [], by simp [findPred], rfl, rfl⟩
    | node c' l' x' r' =>
      obtain ⟨c2, l2, x2, below, e, hp, hR⟩ := ihr (by simp) (Frame.R c l x :: ctx)
      refine ⟨c2, l2, x2, below ++ [Frame.R c l x], ?_, ?_, ?_⟩
      · simp [findPred, e]
      · rw [plug_append, hp]; rfl
      · clear e hp ihr
        induction below with
        | nil => rfl
        | cons f fs ih2 => cases f <;> simp [ctxR] at hR ⊢ ; exact ih2 hR

theorem ctxL_append (a b : Ctx α) : ctxL (a ++ b) = ctxL b ++ ctxL a := by
  induction a with
  | nil => simp [ctxL]
  | cons f a ih => cases f <;> simp [ctxL, ih]

theorem ctxR_append (a b : Ctx α) : ctxR (a ++ b) = ctxR a ++ ctxR b := by
  induction a with
  | nil => simp [ctxR]
  | cons f a ih => cases f <;> simp [ctxR, ih]

theorem unplug_sub {c : Color} {n : Nat} {t : Tree α} {a ctx : Ctx α} (h : RB c n (plug t a))
    (hc : CtxRB c n ctx) : ∃ c' m, RB c' m t ∧ CtxRB c' m (a ++ ctx) := by
  induction a generalizing t with
  | nil => exact ⟨c, n, h, hc⟩
  | cons f a ih =>
    cases f with
    | L cf x r =>
      obtain ⟨c', m, h1, h2⟩ := ih h
      cases h1 with
      | red p q => exact ⟨_, _, p, .redL q h2⟩
      | black p q => exact ⟨_, _, p, .blackL q h2⟩
    | R cf l x =>
      obtain ⟨c', m, h1, h2⟩ := ih h
      cases h1 with
      | red p q => exact ⟨_, _, q, .redR p h2⟩
      | black p q => exact ⟨_, _, q, .blackR p h2⟩

theorem delTwo_ok {c : Color} {n : Nat} {l r : Tree α} {x : α} {ctx : Ctx α}
    (h : RB c n (node c l x r)) (hc : CtxRB c n ctx) (hne : l ≠ leaf) :
    ∃ t' m, delTwo c l r ctx = some t' ∧ RB black m t' ∧
      traverse t' = ctxL ctx ++ traverse l ++ traverse r ++ ctxR ctx := by
  obtain ⟨pc, pl, px, below, e, hp, hR⟩ := findPred_ok hne ([] : Ctx α)
  -- the tree below n's position with pred moved into n's place
  have h' : ∃ cl m, RB cl m l ∧ CtxRB cl m (Frame.L c px r :: ctx) := by
    cases h with
    | red a b => exact ⟨_, _, a, .redL b hc⟩
    | black a b => exact ⟨_, _, a, .blackL b hc⟩
  obtain ⟨cl, m, hl, hcl⟩ := h'
  rw [← hp] at hl
  obtain ⟨c', m', h1, h2⟩ := unplug_sub hl hcl
  have hc'' : c' = pc := by cases h1 <;> rfl
  subst hc''
  obtain ⟨t', k, e', hk, ht⟩ := delOne_ok h1 h2 (Or.inr rfl)
  refine ⟨t', k, ?_, hk, ?_⟩
  · unfold delTwo; rw [e]; simpa using e'
  · rw [ht, ← hp, traverse_plug, ctxL_append, ctxR_append, hR]
    simp [ctxL, ctxR, traverse]

theorem locate_ok [DecidableEq α] {n : α} {t : Tree α} :
    ∀ {ctx : Ctx α} {c l r ctx'}, locate n t ctx = some (c, l, r, ctx') →
      ∃ up, ctx' = up ++ ctx ∧ plug (node c l n r) up = t := by
  induction t with
  | leaf => intro _ _ _ _ _ h; simp [locate] at h
  | node c0 l0 x r0 ihl ihr =>
    intro ctx c l r ctx' h
    unfold locate at h
    split at h
    · rename_i hx
      simp at h
      obtain ⟨rfl, rfl, rfl, rfl⟩ := h
      subst hx
      exact ⟨[], rfl, rfl⟩
    · split at h
      · rename_i p heq
        simp at h
        subst h
        obtain ⟨up, e, hp⟩ := ihl heq
        exact ⟨up ++ [Frame.L c0 x r0], by simp [e], by rw [plug_append, hp]; rfl⟩
      · obtain ⟨up, e, hp⟩ := ihr h
        exact ⟨up ++ [Frame.R c0 l0 x], by simp [e], by rw [plug_append, hp]; rfl⟩

theorem locate_none [DecidableEq α] {n : α} {t : Tree α} :
    ∀ {ctx : Ctx α}, locate n t ctx = none → n ∉ traverse t := by
  induction t with
  | leaf => intro _ _; simp [traverse]
  | node c0 l0 x r0 ihl ihr =>
    intro ctx h
    unfold locate at h
    split at h
    · simp at h
    · rename_i hx
      split at h
      · simp at h
      · rename_i heq
        have h1 := ihl heq
        have h2 := ihr h
        simp [traverse, h1, h2]
        exact fun e => hx e.symm

theorem del_spec [DecidableEq α] (t : Rbt α) (x : α) {n : Nat} (h : RB black n t.root)
    (hmem : x ∈ traverse t.root) (hcard : t.card ≠ 0) (hnd : (traverse t.root).Nodup) :
    ∃ t' m, del t x = some t' ∧ RB black m t'.root ∧ t'.card = t.card - 1 ∧
      traverse t'.root = (traverse t.root).erase x := by
  unfold del
  rw [if_neg hcard]
  cases hloc : locate x t.root [] with
  | none => exact absurd hmem (locate_none hloc)
  | some p =>
    obtain ⟨c, l, r, ctx⟩ := p
    obtain ⟨up, e, hp⟩ := locate_ok hloc
    simp at e
    subst e
    have htr : traverse t.root = ctxL ctx ++ (traverse l ++ x :: traverse r) ++ ctxR ctx := by
      rw [← hp, traverse_plug]; simp [traverse]
    have herase : (traverse t.root).erase x = ctxL ctx ++ traverse l ++ traverse r ++ ctxR ctx := by
      rw [htr] at hnd ⊢
      have : x ∉ ctxL ctx ++ traverse l := by
        intro hx
        have hnd' : ((ctxL ctx ++ traverse l) ++ x :: (traverse r ++ ctxR ctx)).Nodup := by
          simpa [List.append_assoc] using hnd
        rw [List.nodup_append] at hnd'
        exact hnd'.2.2 x hx x (by simp) rfl
      have e2 : ctxL ctx ++ (traverse l ++ x :: traverse r) ++ ctxR ctx =
          (ctxL ctx ++ traverse l) ++ x :: (traverse r ++ ctxR ctx) := by simp
      rw [e2, List.erase_append_right _ this]
      simp
    rw [← hp] at h
    obtain ⟨c', m, h1, h2⟩ := unplug_rb h
    have hcc : c' = c := by cases h1 <;> rfl
    subst hcc
    have key : ∃ t' m, delNode c' l r ctx = some t' ∧ RB black m t' ∧
        traverse t' = ctxL ctx ++ traverse l ++ traverse r ++ ctxR ctx := by
      cases l with
      | leaf => exact delOne_ok h1 h2 (Or.inl rfl)
      | node =>
        cases r with
        | leaf => exact delOne_ok h1 h2 (Or.inr rfl)
        | node => exact delTwo_ok h1 h2 (by simp)
    obtain ⟨t', m', e1, hm, ht⟩ := key
    refine ⟨⟨t', t.card - 1⟩, m', ?_, hm, rfl, ?_⟩
    · simp only [e1]
    · rw [herase]; exact ht

end Verif.Rbt
