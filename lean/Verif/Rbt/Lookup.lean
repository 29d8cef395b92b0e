import Verif.Rbt.Proofs

/-! Helper lemmas about lookups, iteration, balance and histories. -/

namespace Verif.Rbt

open Color Tree

variable {α κ : Type}

theorem LawfulCmp.refl {cmp : κ → κ → Int} (h : LawfulCmp cmp) (a : κ) : cmp a a = 0 := by
  have h1 := h.anti a a
  rcases Int.lt_trichotomy (cmp a a) 0 with h2 | h2 | h2
  · have := h1.2 h2; omega
  · exact h2
  · have := h1.1 h2; omega

theorem sorted_node {cmp : κ → κ → Int} {key : α → κ} {c : Color} {l r : Tree α} {x : α}
    (h : Sorted cmp key (traverse (node c l x r))) :
    Sorted cmp key (traverse l) ∧ Sorted cmp key (traverse r) ∧
      (∀ y ∈ traverse l, cmp (key y) (key x) ≤ 0) ∧ (∀ y ∈ traverse r, cmp (key x) (key y) ≤ 0) := by
  unfold Sorted at *
  simp only [traverse] at h
  rw [List.pairwise_append] at h
  obtain ⟨hl, hxr, hlx⟩ := h
  rw [List.pairwise_cons] at hxr
  exact ⟨hl, hxr.2, fun y hy => hlx y hy x (by simp), hxr.1⟩

theorem find_sound {cmp : κ → κ → Int} {key : α → κ} {k : κ} {t : Tree α} {x : α}
    (h : find cmp key k t = some x) : x ∈ traverse t ∧ cmp (key x) k = 0 := by
  induction t with
  | leaf => simp [find] at h
  | node c l y r ihl ihr =>
    unfold find at h
    split at h
    · simp at h; subst h; simp [traverse]; assumption
    · split at h
      · have := ihl h; simp [traverse, this]
      · have := ihr h; simp [traverse, this]

theorem find_complete {cmp : κ → κ → Int} (hlaw : LawfulCmp cmp) {key : α → κ} {k : κ}
    {t : Tree α} (hs : Sorted cmp key (traverse t)) {x : α} (hx : x ∈ traverse t)
    (hk : cmp (key x) k = 0) : ∃ y, find cmp key k t = some y := by
  induction t with
  | leaf => simp [traverse] at hx
  | node c l y r ihl ihr =>
    obtain ⟨hl, hr, hly, hyr⟩ := sorted_node hs
    unfold find
    by_cases h0 : cmp (key y) k = 0
    · exact ⟨y, by simp [h0]⟩
    · rw [if_neg h0]
      simp only [traverse, List.mem_append, List.mem_cons] at hx
      by_cases hp : cmp (key y) k > 0
      · rw [if_pos hp]
        rcases hx with hx | rfl | hx
        · exact ihl hl hx
        · exact absurd hk h0
        · have := hlaw.trans _ _ _ (hyr x hx) (by omega : cmp (key x) k ≤ 0)
          omega
      · rw [if_neg hp]
        rcases hx with hx | rfl | hx
        · -- x ≤ y < k contradicts x = k
          have h1 : cmp k (key x) ≤ 0 := by
            apply Classical.byContradiction; intro hn
            have := (hlaw.anti k (key x)).1 (by omega); omega
          have h2 := hlaw.trans _ _ _ h1 (hly x hx)
          have h3 : 0 < cmp k (key y) := by
            apply (hlaw.anti k (key y)).2; omega
          omega
        · exact absurd hk h0
        · exact ihr hr hx

/-- specification of a least upper bound among a list -/
def IsLub (cmp : κ → κ → Int) (key : α → κ) (k : κ) (l : List α) (x : α) : Prop :=
  x ∈ l ∧ 0 ≤ cmp (key x) k ∧ ∀ y ∈ l, 0 ≤ cmp (key y) k → cmp (key x) (key y) ≤ 0

/-- specification of a greatest lower bound among a list -/
def IsGlb (cmp : κ → κ → Int) (key : α → κ) (k : κ) (l : List α) (x : α) : Prop :=
  x ∈ l ∧ cmp (key x) k ≤ 0 ∧ ∀ y ∈ l, cmp (key y) k ≤ 0 → cmp (key y) (key x) ≤ 0

theorem LawfulCmp.nonneg_iff {cmp : κ → κ → Int} (h : LawfulCmp cmp) (a b : κ) :
    0 ≤ cmp a b ↔ cmp b a ≤ 0 := by
  have h1 := h.anti b a
  constructor
  · intro h2; apply Classical.byContradiction; intro hn
    have := h1.1 (by omega); omega
  · intro h2; apply Classical.byContradiction; intro hn
    have := h1.2 (by omega); omega

theorem findLubLoop_spec {cmp : κ → κ → Int} (hlaw : LawfulCmp cmp) {key : α → κ} {k : κ}
    (t : Tree α) (acc : Option α) (hs : Sorted cmp key (traverse t)) :
    (∃ x, findLubLoop cmp key k t acc = some x ∧ IsLub cmp key k (traverse t) x) ∨
    (findLubLoop cmp key k t acc = acc ∧ ∀ y ∈ traverse t, cmp (key y) k < 0) := by
  induction t generalizing acc with
  | leaf => right; simp [findLubLoop, traverse]
  | node c l y r ihl ihr =>
    obtain ⟨hl, hr, hly, hyr⟩ := sorted_node hs
    unfold findLubLoop
    by_cases h0 : cmp (key y) k = 0
    · left
      refine ⟨y, by simp [h0], by simp [traverse], by omega, ?_⟩
      intro z _ hz
      exact hlaw.trans _ _ _ (by omega : cmp (key y) k ≤ 0) ((hlaw.nonneg_iff _ _).1 hz)
    · rw [if_neg h0]
      by_cases hn : cmp (key y) k < 0
      · rw [if_pos hn]
        have hleft : ∀ z ∈ traverse l, cmp (key z) k < 0 := by
          intro z hz
          have h2 := hlaw.trans _ _ _ (hly z hz) (by omega : cmp (key y) k ≤ 0)
          have h3 : ¬ 0 ≤ cmp (key z) k := by
            intro h4
            have h5 := (hlaw.nonneg_iff _ _).1 h4
            have h6 := hlaw.trans _ _ _ h5 (hly z hz)
            have := (hlaw.anti k (key y)).2 hn
            omega
          omega
        rcases ihr acc hr with ⟨x, e, hx, hx2, hx3⟩ | ⟨e, hall⟩
        · left
          refine ⟨x, e, by simp [traverse, hx], hx2, ?_⟩
          intro z hz hz2
          simp only [traverse, List.mem_append, List.mem_cons] at hz
          rcases hz with hz | rfl | hz
          · have := hleft z hz; omega
          · omega
          · exact hx3 z hz hz2
        · right
          refine ⟨e, ?_⟩
          intro z hz
          simp only [traverse, List.mem_append, List.mem_cons] at hz
          rcases hz with hz | rfl | hz
          · exact hleft z hz
          · exact hn
          · exact hall z hz
      · rw [if_neg hn]
        have hge : 0 ≤ cmp (key y) k := by omega
        left
        rcases ihl (some y) hl with ⟨x, e, hx, hx2, hx3⟩ | ⟨e, hall⟩
        · refine ⟨x, e, by simp [traverse, hx], hx2, ?_⟩
          intro z hz hz2
          simp only [traverse, List.mem_append, List.mem_cons] at hz
          rcases hz with hz | rfl | hz
          · exact hx3 z hz hz2
          · exact hly x hx
          · exact hlaw.trans _ _ _ (hly x hx) (hyr z hz)
        · refine ⟨y, e, by simp [traverse], hge, ?_⟩
          intro z hz hz2
          simp only [traverse, List.mem_append, List.mem_cons] at hz
          rcases hz with hz | rfl | hz
          · have := hall z hz; omega
          · have := hlaw.refl (key z); omega
          · exact hyr z hz

theorem findGlbLoop_spec {cmp : κ → κ → Int} (hlaw : LawfulCmp cmp) {key : α → κ} {k : κ}
    (t : Tree α) (acc : Option α) (hs : Sorted cmp key (traverse t)) :
    (∃ x, findGlbLoop cmp key k t acc = some x ∧ IsGlb cmp key k (traverse t) x) ∨
    (findGlbLoop cmp key k t acc = acc ∧ ∀ y ∈ traverse t, 0 < cmp (key y) k) := by
  induction t generalizing acc with
  | leaf => right; simp [findGlbLoop, traverse]
  | node c l y r ihl ihr =>
    obtain ⟨hl, hr, hly, hyr⟩ := sorted_node hs
    unfold findGlbLoop
    by_cases h0 : cmp (key y) k = 0
    · left
      refine ⟨y, by simp [h0], by simp [traverse], by omega, ?_⟩
      intro z _ hz
      exact hlaw.trans _ _ _ hz ((hlaw.nonneg_iff _ _).1 (by omega))
    · rw [if_neg h0]
      by_cases hn : cmp (key y) k > 0
      · rw [if_pos hn]
        have hright : ∀ z ∈ traverse r, 0 < cmp (key z) k := by
          intro z hz
          apply Classical.byContradiction; intro h4
          have := hlaw.trans _ _ _ (hyr z hz) (by omega : cmp (key z) k ≤ 0)
          omega
        rcases ihl acc hl with ⟨x, e, hx, hx2, hx3⟩ | ⟨e, hall⟩
        · left
          refine ⟨x, e, by simp [traverse, hx], hx2, ?_⟩
          intro z hz hz2
          simp only [traverse, List.mem_append, List.mem_cons] at hz
          rcases hz with hz | rfl | hz
          · exact hx3 z hz hz2
          · omega
          · have := hright z hz; omega
        · right
          refine ⟨e, ?_⟩
          intro z hz
          simp only [traverse, List.mem_append, List.mem_cons] at hz
          rcases hz with hz | rfl | hz
          · exact hall z hz
          · exact hn
          · exact hright z hz
      · rw [if_neg hn]
        left
        rcases ihr (some y) hr with ⟨x, e, hx, hx2, hx3⟩ | ⟨e, hall⟩
        · refine ⟨x, e, by simp [traverse, hx], hx2, ?_⟩
          intro z hz hz2
          simp only [traverse, List.mem_append, List.mem_cons] at hz
          rcases hz with hz | rfl | hz
          · exact hlaw.trans _ _ _ (hly z hz) (hyr x hx)
          · exact hyr x hx
          · exact hx3 z hz hz2
        · refine ⟨y, e, by simp [traverse], by omega, ?_⟩
          intro z hz hz2
          simp only [traverse, List.mem_append, List.mem_cons] at hz
          rcases hz with hz | rfl | hz
          · exact hly z hz
          · have := hlaw.refl (key z); omega
          · have := hall z hz; omega

/-! ## min, max, succ, pred -/

theorem min?_eq (t : Tree α) : min? t = (traverse t).head? := by
  induction t with
  | leaf => rfl
  | node c l x r ihl _ =>
    cases l with
    | leaf => rfl
    | node c' l' y r' =>
      rw [min?, ihl]
      simp only [traverse]
      cases traverse l' <;> simp

theorem max?_eq (t : Tree α) : max? t = (traverse t).getLast? := by
  induction t with
  | leaf => rfl
  | node c l x r _ ihr =>
    cases r with
    | leaf => simp [max?, traverse]
    | node c' l' y r' =>
      rw [max?, ihr]
      simp only [traverse]
      simp [List.getLast?_append, List.getLast?_cons]

theorem climbSucc_eq (ctx : Ctx α) : climbSucc ctx = (ctxR ctx).head? := by
  induction ctx with
  | nil => rfl
  | cons f ctx ih => cases f <;> simp [climbSucc, ctxR, ih]

theorem climbPred_eq (ctx : Ctx α) : climbPred ctx = (ctxL ctx).getLast? := by
  induction ctx with
  | nil => rfl
  | cons f ctx ih => cases f <;> simp [climbPred, ctxL, ih]

theorem succ_eq [DecidableEq α] {t : Tree α} {x : α} (h : x ∈ traverse t) :
    ∃ a b, traverse t = a ++ x :: b ∧ succ t x = some b.head? := by
  unfold succ
  cases hloc : locate x t [] with
  | none => exact absurd h (locate_none hloc)
  | some p =>
    obtain ⟨c, l, r, ctx⟩ := p
    obtain ⟨up, e, hp⟩ := locate_ok hloc
    simp at e; subst e
    refine ⟨ctxL ctx ++ traverse l, traverse r ++ ctxR ctx, ?_, ?_⟩
    · rw [← hp, traverse_plug]; simp [traverse]
    · cases r with
      | leaf => simp [traverse, climbSucc_eq]
      | node c' l' y r' =>
        simp only [min?_eq, traverse]
        cases traverse l' <;> simp

theorem pred_eq [DecidableEq α] {t : Tree α} {x : α} (h : x ∈ traverse t) :
    ∃ a b, traverse t = a ++ x :: b ∧ pred t x = some a.getLast? := by
  unfold pred
  cases hloc : locate x t [] with
  | none => exact absurd h (locate_none hloc)
  | some p =>
    obtain ⟨c, l, r, ctx⟩ := p
    obtain ⟨up, e, hp⟩ := locate_ok hloc
    simp at e; subst e
    refine ⟨ctxL ctx ++ traverse l, traverse r ++ ctxR ctx, ?_, ?_⟩
    · rw [← hp, traverse_plug]; simp [traverse]
    · cases l with
      | leaf => simp [traverse, climbPred_eq]
      | node c' l' y r' =>
        simp only [max?_eq, traverse]
        simp [List.getLast?_append, List.getLast?_cons]

/-! ## Balance -/

theorem rb_noRedRed {c : Color} {n : Nat} {t : Tree α} (h : RB c n t) : NoRedRed t := by
  induction h with
  | leaf => simp [NoRedRed]
  | red a b iha ihb => simp [NoRedRed, iha, ihb, a.color_eq, b.color_eq]
  | black a b iha ihb => simp [NoRedRed, iha, ihb]

theorem rb_paths {c : Color} {n : Nat} {t : Tree α} (h : RB c n t) :
    ∀ p ∈ paths t, p.count black = n := by
  induction h with
  | leaf => simp [paths]
  | red a b iha ihb =>
    intro p hp
    simp only [paths, List.mem_map, List.mem_append] at hp
    obtain ⟨q, hq, rfl⟩ := hp
    rcases hq with hq | hq
    · simp [iha q hq]
    · simp [ihb q hq]
  | black a b iha ihb =>
    intro p hp
    simp only [paths, List.mem_map, List.mem_append] at hp
    obtain ⟨q, hq, rfl⟩ := hp
    rcases hq with hq | hq
    · simp [iha q hq]
    · simp [ihb q hq]

theorem rb_isRedBlack {n : Nat} {t : Tree α} (h : RB black n t) : IsRedBlack t :=
  ⟨h.color_eq, rb_noRedRed h, fun p hp q hq => by rw [rb_paths h p hp, rb_paths h q hq]⟩

theorem rb_size {c : Color} {n : Nat} {t : Tree α} (h : RB c n t) :
    2 ^ n ≤ (traverse t).length + 1 := by
  induction h with
  | leaf => simp [traverse]
  | red a b iha ihb => simp [traverse]; omega
  | black a b iha ihb => simp [traverse, Nat.pow_succ]; omega

theorem rb_height {c : Color} {n : Nat} {t : Tree α} (h : RB c n t) :
    height t ≤ 2 * n + (if c = Color.red then 1 else 0) := by
  induction h with
  | leaf => simp [height]
  | red a b iha ihb => simp [height] at *; omega
  | @black n l x r cl cr a b iha ihb =>
    simp only [height]
    have : height l ≤ 2 * n + 1 := by split at iha <;> omega
    have : height r ≤ 2 * n + 1 := by split at ihb <;> omega
    simp; omega

/-- `IsRedBlack` in terms of `RB`. -/
theorem rb_of_spec : ∀ {t : Tree α}, NoRedRed t →
    (∀ p ∈ paths t, ∀ q ∈ paths t, p.count black = q.count black) →
    ∃ n, RB (color t) n t := by
  intro t
  induction t with
  | leaf => intro _ _; exact ⟨0, .leaf⟩
  | node c l x r ihl ihr =>
    intro hn hp
    obtain ⟨hc, hnl, hnr⟩ := hn
    have hpl : ∀ p ∈ paths l, ∀ q ∈ paths l, p.count black = q.count black := by
      intro p hp' q hq'
      have := hp (c :: p) (by simp [paths, hp']) (c :: q) (by simp [paths, hq'])
      simp only [List.count_cons] at this; omega
    have hpr : ∀ p ∈ paths r, ∀ q ∈ paths r, p.count black = q.count black := by
      intro p hp' q hq'
      have := hp (c :: p) (by simp [paths, hp']) (c :: q) (by simp [paths, hq'])
      simp only [List.count_cons] at this; omega
    obtain ⟨nl, hl⟩ := ihl hnl hpl
    obtain ⟨nr, hr⟩ := ihr hnr hpr
    have hne : ∀ t : Tree α, ∃ p, p ∈ paths t := by
      intro t; induction t with
      | leaf => exact ⟨[], by simp [paths]⟩
      | node c l x r ih _ => obtain ⟨p, hp⟩ := ih; exact ⟨c :: p, by simp [paths, hp]⟩
    have hnn : nl = nr := by
      obtain ⟨p, hp1⟩ := hne l
      obtain ⟨q, hq1⟩ := hne r
      have := hp (c :: p) (by simp [paths, hp1]) (c :: q) (by simp [paths, hq1])
      simp only [List.count_cons] at this
      rw [rb_paths hl p hp1, rb_paths hr q hq1] at this; omega
    subst hnn
    cases c with
    | red =>
      obtain ⟨h1, h2⟩ := hc rfl
      rw [h1] at hl; rw [h2] at hr
      exact ⟨_, .red hl hr⟩
    | black => exact ⟨_, .black hl hr⟩

/-! ## Histories -/

/-- the coupling invariant between the tree and the reference list -/
structure Coupled (cmp : κ → κ → Int) (key : α → κ) (t : Rbt α) (l : List α) : Prop where
  rb : ∃ n, RB black n t.root
  list : traverse t.root = l
  card : t.card = l.length
  nodup : l.Nodup
  sorted : Sorted cmp key l

theorem coupled_init (cmp : κ → κ → Int) (key : α → κ) : Coupled cmp key (init : Rbt α) [] :=
  ⟨⟨0, .leaf⟩, rfl, rfl, List.nodup_nil, List.Pairwise.nil⟩

theorem coupled_ins [DecidableEq α] {cmp : κ → κ → Int} (hlaw : LawfulCmp cmp) {key : α → κ}
    {t : Rbt α} {l : List α} (h : Coupled cmp key t l) {x : α} (hx : x ∉ l) :
    ∃ t', ins cmp key t x = some t' ∧ Coupled cmp key t' (insertSorted cmp key x l) := by
  obtain ⟨n, hn⟩ := h.rb
  obtain ⟨t', m, e, hm, hc, ht⟩ := ins_spec hlaw key t x hn (by rw [h.list]; exact h.sorted)
  rw [h.list] at ht
  refine ⟨t', e, ⟨m, hm⟩, ht, ?_, ?_, sorted_insertSorted hlaw h.sorted⟩
  · rw [hc, h.card, perm_insertSorted.length_eq]; simp
  · rw [perm_insertSorted.nodup_iff]; simp [hx, h.nodup]

theorem coupled_del [DecidableEq α] {cmp : κ → κ → Int} {key : α → κ}
    {t : Rbt α} {l : List α} (h : Coupled cmp key t l) {x : α} (hx : x ∈ l) :
    ∃ t', del t x = some t' ∧ Coupled cmp key t' (l.erase x) := by
  obtain ⟨n, hn⟩ := h.rb
  have hpos := List.length_pos_of_mem hx
  have hc0 := h.card
  obtain ⟨t', m, e, hm, hc, ht⟩ := del_spec t x hn (by rw [h.list]; exact hx) (by omega)
    (by rw [h.list]; exact h.nodup)
  rw [h.list] at ht
  refine ⟨t', e, ⟨m, hm⟩, ht, ?_, h.nodup.erase x, ?_⟩
  · rw [hc, h.card, List.length_erase_of_mem hx]; omega
  · exact List.Pairwise.sublist List.erase_sublist h.sorted

theorem coupled_run [DecidableEq α] {cmp : κ → κ → Int} (hlaw : LawfulCmp cmp) {key : α → κ} :
    ∀ (ops : List (Op α)) (t : Rbt α) (l : List α), Coupled cmp key t l → Legal cmp key l ops →
      ∃ t', run cmp key t ops = some t' ∧ Coupled cmp key t' (specRun cmp key l ops) := by
  intro ops
  induction ops with
  | nil => intro t l h _; exact ⟨t, rfl, h⟩
  | cons op ops ih =>
    intro t l h hleg
    cases op with
    | ins x =>
      obtain ⟨hx, hleg⟩ := hleg
      obtain ⟨t', e, h'⟩ := coupled_ins hlaw h hx
      obtain ⟨t'', e', h''⟩ := ih t' _ h' hleg
      exact ⟨t'', by simp [run, step, e, e'], h''⟩
    | del x =>
      obtain ⟨hx, hleg⟩ := hleg
      obtain ⟨t', e, h'⟩ := coupled_del h hx
      obtain ⟨t'', e', h''⟩ := ih t' _ h' hleg
      exact ⟨t'', by simp [run, step, e, e'], h''⟩

/-! ## Replacing the comparator by one that agrees on the keys involved -/

theorem find_congr {cmp cmp' : κ → κ → Int} {key : α → κ} {k : κ} {t : Tree α}
    (h : ∀ x ∈ traverse t, cmp (key x) k = cmp' (key x) k) :
    find cmp key k t = find cmp' key k t := by
  induction t with
  | leaf => rfl
  | node c l x r ihl ihr =>
    have hx := h x (by simp [traverse])
    simp only [find, hx]
    rw [ihl (fun y hy => h y (by simp [traverse, hy])), ihr (fun y hy => h y (by simp [traverse, hy]))]

theorem findLub_congr {cmp cmp' : κ → κ → Int} {key : α → κ} {k : κ} {t : Tree α}
    (h : ∀ x ∈ traverse t, (0 < cmp (key x) k ↔ 0 < cmp' (key x) k) ∧
      (cmp (key x) k < 0 ↔ cmp' (key x) k < 0)) :
    findLub cmp key k t = findLub cmp' key k t := by
  unfold findLub
  generalize (none : Option α) = acc
  induction t generalizing acc with
  | leaf => rfl
  | node c l x r ihl ihr =>
    obtain ⟨h1, h2⟩ := h x (by simp [traverse])
    have h0 : cmp (key x) k = 0 ↔ cmp' (key x) k = 0 := by omega
    simp only [findLubLoop, h0, h2]
    rw [ihl (fun y hy => h y (by simp [traverse, hy])), ihr (fun y hy => h y (by simp [traverse, hy]))]

theorem descend_congr {cmp cmp' : κ → κ → Int} {key : α → κ} {k : κ} {t : Tree α}
    (h : ∀ x ∈ traverse t, (0 < cmp (key x) k ↔ 0 < cmp' (key x) k)) (ctx : Ctx α) :
    descend cmp key k t ctx = descend cmp' key k t ctx := by
  induction t generalizing ctx with
  | leaf => rfl
  | node c l x r ihl ihr =>
    have h1 := h x (by simp [traverse])
    simp only [descend, gt_iff_lt, h1]
    rw [ihl (fun y hy => h y (by simp [traverse, hy])), ihr (fun y hy => h y (by simp [traverse, hy]))]

theorem ins_congr {cmp cmp' : κ → κ → Int} {key : α → κ} {t : Rbt α} {x : α}
    (h : ∀ y ∈ traverse t.root, (0 < cmp (key y) (key x) ↔ 0 < cmp' (key y) (key x))) :
    ins cmp key t x = ins cmp' key t x := by
  unfold ins
  split
  · rfl
  · rename_i heq
    rw [heq] at h
    rw [descend_congr h]

end Verif.Rbt
