import Verif.Rbt.Lookup

/-!
# Properties of the red-black tree (C05, C06)

Every theorem ranges over all key types, all lawful comparators and all legal histories.
-/

namespace Verif.Rbt

open Color Tree

variable {α κ : Type}

/-- **C05 (history refinement).** Starting from `rbt_init`, every legal history of `rbt_ins` and
`rbt_del` runs without a crash, `rbt_traverse` lists exactly what a sorted list maintained by the
same operations would contain (equal keys in insertion order), and `rbt_card` is its length. -/
theorem rbt_refines_sorted_list [DecidableEq α] {cmp : κ → κ → Int} (hlaw : LawfulCmp cmp)
    (key : α → κ) (ops : List (Op α)) (hleg : Legal cmp key [] ops) :
    ∃ t, run cmp key init ops = some t ∧
      traverse t.root = specRun cmp key [] ops ∧
      t.card = (specRun cmp key [] ops).length ∧
      Sorted cmp key (traverse t.root) := by
  obtain ⟨t, e, h⟩ := coupled_run hlaw ops init [] (coupled_init cmp key) hleg
  exact ⟨t, e, h.list, h.card, by rw [h.list]; exact h.sorted⟩

/-- **C05 (find).** After any legal history, `rbt_find k` returns a node of the tree with key equal
to `k` if there is one, and NULL otherwise. -/
theorem rbt_find_correct [DecidableEq α] {cmp : κ → κ → Int} (hlaw : LawfulCmp cmp)
    (key : α → κ) (ops : List (Op α)) (hleg : Legal cmp key [] ops) (k : κ) :
    ∃ t, run cmp key init ops = some t ∧
      (∀ x, find cmp key k t.root = some x → x ∈ specRun cmp key [] ops ∧ cmp (key x) k = 0) ∧
      (find cmp key k t.root = none → ∀ x ∈ specRun cmp key [] ops, cmp (key x) k ≠ 0) := by
  obtain ⟨t, e, h⟩ := coupled_run hlaw ops init [] (coupled_init cmp key) hleg
  refine ⟨t, e, ?_, ?_⟩
  · intro x hx
    have := find_sound hx
    rw [h.list] at this; exact this
  · intro hn x hx h0
    obtain ⟨y, hy⟩ := find_complete hlaw (by rw [h.list]; exact h.sorted) (by rw [h.list]; exact hx) h0
    rw [hn] at hy; simp at hy

/-- **C05 (least upper bound).** `rbt_find_lub k` returns a node whose key is `≥ k` and `≤` every
other key `≥ k`; it returns NULL exactly when all keys are `< k`. -/
theorem rbt_find_lub_correct [DecidableEq α] {cmp : κ → κ → Int} (hlaw : LawfulCmp cmp)
    (key : α → κ) (ops : List (Op α)) (hleg : Legal cmp key [] ops) (k : κ) :
    ∃ t, run cmp key init ops = some t ∧
      (∀ x, findLub cmp key k t.root = some x → x ∈ specRun cmp key [] ops ∧ 0 ≤ cmp (key x) k ∧
        ∀ y ∈ specRun cmp key [] ops, 0 ≤ cmp (key y) k → cmp (key x) (key y) ≤ 0) ∧
      (findLub cmp key k t.root = none ↔ ∀ y ∈ specRun cmp key [] ops, cmp (key y) k < 0) := by
  obtain ⟨t, e, h⟩ := coupled_run hlaw ops init [] (coupled_init cmp key) hleg
  have hs := findLubLoop_spec hlaw (k := k) t.root none (by rw [h.list]; exact h.sorted)
  rw [h.list] at hs
  refine ⟨t, e, ?_, ?_⟩
  · intro x hx
    rcases hs with ⟨y, e1, h1⟩ | ⟨e1, _⟩
    · rw [findLub, e1] at hx; simp at hx; subst hx; exact h1
    · rw [findLub, e1] at hx; simp at hx
  · rcases hs with ⟨y, e1, h1, h2, _⟩ | ⟨e1, h1⟩
    · rw [findLub, e1]; simp; exact ⟨y, h1, h2⟩
    · rw [findLub, e1]; simpa using h1

/-- **C05 (greatest lower bound).** `rbt_find_glb k` returns a node whose key is `≤ k` and `≥` every
other key `≤ k`; it returns NULL exactly when all keys are `> k`. -/
theorem rbt_find_glb_correct [DecidableEq α] {cmp : κ → κ → Int} (hlaw : LawfulCmp cmp)
    (key : α → κ) (ops : List (Op α)) (hleg : Legal cmp key [] ops) (k : κ) :
    ∃ t, run cmp key init ops = some t ∧
      (∀ x, findGlb cmp key k t.root = some x → x ∈ specRun cmp key [] ops ∧ cmp (key x) k ≤ 0 ∧
        ∀ y ∈ specRun cmp key [] ops, cmp (key y) k ≤ 0 → cmp (key y) (key x) ≤ 0) ∧
      (findGlb cmp key k t.root = none ↔ ∀ y ∈ specRun cmp key [] ops, 0 < cmp (key y) k) := by
  obtain ⟨t, e, h⟩ := coupled_run hlaw ops init [] (coupled_init cmp key) hleg
  have hs := findGlbLoop_spec hlaw (k := k) t.root none (by rw [h.list]; exact h.sorted)
  rw [h.list] at hs
  refine ⟨t, e, ?_, ?_⟩
  · intro x hx
    rcases hs with ⟨y, e1, h1⟩ | ⟨e1, _⟩
    · rw [findGlb, e1] at hx; simp at hx; subst hx; exact h1
    · rw [findGlb, e1] at hx; simp at hx
  · rcases hs with ⟨y, e1, h1, h2, _⟩ | ⟨e1, h1⟩
    · rw [findGlb, e1]; simp; exact ⟨y, h1, h2⟩
    · rw [findGlb, e1]; simpa using h1

/-- **C05 (extremes and iteration).** `rbt_min`/`rbt_max` return the first/last element of the sorted
listing, and `rbn_succ`/`rbn_pred` of the element at any position return its neighbours, so the
iteration `for (n = rbt_min(t); n; n = rbn_succ(n))` visits every node once, in order. -/
theorem rbt_iteration_correct [DecidableEq α] {cmp : κ → κ → Int} (hlaw : LawfulCmp cmp)
    (key : α → κ) (ops : List (Op α)) (hleg : Legal cmp key [] ops) :
    ∃ t, run cmp key init ops = some t ∧
      min? t.root = (specRun cmp key [] ops).head? ∧
      max? t.root = (specRun cmp key [] ops).getLast? ∧
      ∀ a x b, specRun cmp key [] ops = a ++ x :: b →
        succ t.root x = some b.head? ∧ pred t.root x = some a.getLast? := by
  obtain ⟨t, e, h⟩ := coupled_run hlaw ops init [] (coupled_init cmp key) hleg
  refine ⟨t, e, by rw [min?_eq, h.list], by rw [max?_eq, h.list], ?_⟩
  intro a x b hab
  have hmem : x ∈ traverse t.root := by rw [h.list, hab]; simp
  have uniq : ∀ a' b', traverse t.root = a' ++ x :: b' → a' = a ∧ b' = b := by
    intro a' b' h'
    rw [h.list, hab] at h'
    have hnd := h.nodup
    rw [hab] at hnd
    have hxa : x ∉ a := by
      intro hx; rw [List.nodup_append] at hnd; exact hnd.2.2 x hx x (by simp) rfl
    have hxa' : x ∉ a' := by
      intro hx; rw [h', List.nodup_append] at hnd; exact hnd.2.2 x hx x (by simp) rfl
    clear hab hmem hnd
    induction a generalizing a' with
    | nil =>
      cases a' with
      | nil => simp at h'; exact ⟨rfl, h'.symm⟩
      | cons y ys => simp at h'; exact absurd h'.1 (by intro e; subst e; simp at hxa')
    | cons z zs ih =>
      cases a' with
      | nil => simp at h'; exact absurd h'.1 (by intro e; subst e; simp at hxa)
      | cons y ys =>
        simp at h' hxa hxa'
        obtain ⟨rfl, h'⟩ := h'
        obtain ⟨rfl, rfl⟩ := ih ys h' hxa.2 hxa'.2
        exact ⟨rfl, rfl⟩
  constructor
  · obtain ⟨a', b', h1, h2⟩ := succ_eq hmem
    obtain ⟨rfl, rfl⟩ := uniq a' b' h1
    exact h2
  · obtain ⟨a', b', h1, h2⟩ := pred_eq hmem
    obtain ⟨rfl, rfl⟩ := uniq a' b' h1
    exact h2

/-- **C06 (balance).** After any legal history the tree satisfies the red-black conditions that
`rbt_verify` asserts, so its height, and hence the number of comparisons of a lookup, is at most
`2 * log2 (n + 1)` for `n` nodes. -/
theorem rbt_balanced [DecidableEq α] {cmp : κ → κ → Int} (hlaw : LawfulCmp cmp)
    (key : α → κ) (ops : List (Op α)) (hleg : Legal cmp key [] ops) :
    ∃ t, run cmp key init ops = some t ∧ IsRedBlack t.root ∧
      height t.root ≤ 2 * Nat.log2 ((specRun cmp key [] ops).length + 1) := by
  obtain ⟨t, e, h⟩ := coupled_run hlaw ops init [] (coupled_init cmp key) hleg
  obtain ⟨n, hn⟩ := h.rb
  refine ⟨t, e, rb_isRedBlack hn, ?_⟩
  have h1 := rb_height hn
  have h2 := rb_size hn
  rw [h.list] at h2
  have h3 : n ≤ Nat.log2 ((specRun cmp key [] ops).length + 1) :=
    (Nat.le_log2 (by omega)).2 h2
  simp at h1
  omega

/-- **C05/C06 (single step).** From *any* red-black tree listing a sorted list without repeated
nodes, whatever history produced it, one insertion or deletion gives again such a tree. -/
theorem rbt_step_preserves [DecidableEq α] {cmp : κ → κ → Int} (hlaw : LawfulCmp cmp)
    (key : α → κ) (t : Rbt α) (hrb : IsRedBlack t.root) (hs : Sorted cmp key (traverse t.root))
    (hnd : (traverse t.root).Nodup) (hc : t.card = (traverse t.root).length) (x : α) :
    (x ∉ traverse t.root → ∃ t', ins cmp key t x = some t' ∧ IsRedBlack t'.root ∧
      traverse t'.root = insertSorted cmp key x (traverse t.root) ∧ t'.card = t.card + 1) ∧
    (x ∈ traverse t.root → ∃ t', del t x = some t' ∧ IsRedBlack t'.root ∧
      traverse t'.root = (traverse t.root).erase x ∧ t'.card = t.card - 1) := by
  obtain ⟨n, hn⟩ := rb_of_spec hrb.2.1 hrb.2.2
  rw [hrb.1] at hn
  constructor
  · intro _
    obtain ⟨t', m, e, hm, hc', ht⟩ := ins_spec hlaw key t x hn hs
    exact ⟨t', e, rb_isRedBlack hm, ht, hc'⟩
  · intro hx
    have := List.length_pos_of_mem hx
    obtain ⟨t', m, e, hm, hc', ht⟩ := del_spec t x hn hx (by omega) hnd
    exact ⟨t', e, rb_isRedBlack hm, ht, hc'⟩

/-! ## The hypotheses are met by concrete histories -/

/-- integer keys compared by subtraction, as most comparators in the code base do -/
def intCmp (a b : Int) : Int := a - b

theorem intCmp_lawful : LawfulCmp intCmp where
  anti := by intro a b; unfold intCmp; omega
  trans := by intro a b c; unfold intCmp; omega

/-- nodes `(key, address)`: duplicate keys 5, a deletion with two children, then a re-insertion -/
def sampleOps : List (Op (Int × Nat)) :=
  [.ins (5, 0), .ins (3, 1), .ins (5, 2), .ins (8, 3), .ins (1, 4), .ins (9, 5), .ins (7, 6),
   .del (5, 0), .del (3, 1), .ins (5, 0), .del (8, 3)]

example : Legal intCmp Prod.fst [] sampleOps := by
  simp [sampleOps, Legal, specStep, insertSorted, intCmp]

example : specRun intCmp Prod.fst [] sampleOps = [(1, 4), (5, 2), (5, 0), (7, 6), (9, 5)] := by
  decide

example : (run intCmp Prod.fst init sampleOps).map (fun t => (traverse t.root, t.card)) =
    some ([(1, 4), (5, 2), (5, 0), (7, 6), (9, 5)], 5) := by
  decide +kernel

end Verif.Rbt
