import Verif.CfgObj.Model
import Verif.NameTab.Props

/-!
# C32: configuration objects
-/

namespace Verif.CfgObj

open NameTab (strcmp strcmp_eq strcmp_swap strcmp_trans)

/-! ## specification -/

/-- what a user knows: the objects that exist by name, how many were made, and the references held (an
object occurs once for every reference to it) -/
structure World where
  live : List (Name × Nat)
  cnt : Nat
  held : List Nat
  deriving DecidableEq, Repr

def World.empty : World := ⟨[], 0, []⟩

/-- what each call must do -/
inductive Spec : World → Op → Res → World → Prop
  | newOk {w : World} {n : Name} : (∀ p ∈ w.live, p.1 ≠ n) →
    Spec w (.new n) (.obj w.cnt) ⟨(n, w.cnt) :: w.live, w.cnt + 1, w.held⟩
  | newExists {w : World} {n : Name} : (∃ p ∈ w.live, p.1 = n) → Spec w (.new n) .eexist w
  | findOk {w : World} {n : Name} {i : Nat} : (n, i) ∈ w.live →
    Spec w (.find n) (.obj i) { w with held := i :: w.held }
  | findNone {w : World} {n : Name} : (∀ p ∈ w.live, p.1 ≠ n) → Spec w (.find n) .null w
  | get {w : World} {i : Nat} : Spec w (.get i) .done { w with held := i :: w.held }
  | put {w : World} {i : Nat} : Spec w (.put i) .done { w with held := w.held.erase i }
  | unlinkOk {w : World} {n : Name} {i : Nat} : (n, i) ∈ w.live →
    Spec w (.unlink n) .done { w with live := w.live.filter fun p => p.1 ≠ n }
  | unlinkNone {w : World} {n : Name} : (∀ p ∈ w.live, p.1 ≠ n) → Spec w (.unlink n) .enoent w
  | firstOk {w : World} {n : Name} {i : Nat} : (n, i) ∈ w.live →
    (∀ p ∈ w.live, p = (n, i) ∨ strcmp n p.1 = .lt) →
    Spec w .first (.obj i) { w with held := i :: w.held }
  | firstNone {w : World} : w.live = [] → Spec w .first .null w
  | nextOk {w : World} {n m : Name} {i j : Nat} : (n, i) ∈ w.live → (m, j) ∈ w.live → strcmp n m = .lt →
    (∀ p ∈ w.live, strcmp n p.1 = .lt → p = (m, j) ∨ strcmp m p.1 = .lt) →
    Spec w (.next i) (.obj j) { w with held := (j :: w.held).erase i }
  | nextNone {w : World} {n : Name} {i : Nat} : (n, i) ∈ w.live →
    (∀ p ∈ w.live, strcmp n p.1 ≠ .lt) →
    Spec w (.next i) .null { w with held := w.held.erase i }

/-- what a caller may do: use references it holds, iterate over objects not removed meanwhile (the lock
of the type is held during an iteration) -/
def Legal (w : World) : Op → Prop
  | .get i => i ∈ w.held
  | .put i => i ∈ w.held
  | .next i => i ∈ w.held ∧ ∃ n, (n, i) ∈ w.live
  | _ => True

/-- the state shows the world: the tree lists the live objects in name order, and an object has been
destroyed exactly if it is not live and nobody holds a reference -/
structure Shows (s : St) (w : World) : Prop where
  cnt : s.objs.length = w.cnt
  tree : ∀ p, p ∈ s.tree ↔ p ∈ w.live
  sorted : s.tree.Pairwise fun p q => strcmp p.1 q.1 = .lt
  destroyed : ∀ i o, s.objs[i]? = some o → (o.freed = true ↔ (∀ p ∈ w.live, p.2 ≠ i) ∧ i ∉ w.held)

/-! ## proof -/

/-- number of references an object must have -/
def want (t : List (Name × Nat)) (h : List Nat) (i : Nat) : Nat :=
  h.count i + if i ∈ t.map (·.2) then 1 else 0

def RefIs (s : St) (f : Nat → Nat) : Prop :=
  ∀ i o, s.objs[i]? = some o → o.refs = f i ∧ (o.freed = true ↔ o.refs = 0)

structure Inv (s : St) (w : World) : Prop where
  cnt : s.objs.length = w.cnt
  tree : ∀ p, p ∈ s.tree ↔ p ∈ w.live
  sorted : s.tree.Pairwise fun p q => strcmp p.1 q.1 = .lt
  ids : (s.tree.map (·.2)).Nodup
  bound : ∀ p ∈ s.tree, p.2 < s.objs.length
  heldB : ∀ i ∈ w.held, i < s.objs.length
  refs : RefIs s (want s.tree w.held)

theorem mem_ids {t : List (Name × Nat)} {i : Nat} : i ∈ t.map (·.2) ↔ ∃ n, (n, i) ∈ t := by
  simp only [List.mem_map]
  constructor
  · rintro ⟨⟨n, j⟩, h, rfl⟩; exact ⟨n, h⟩
  · rintro ⟨n, h⟩; exact ⟨_, h, rfl⟩

theorem inv_shows {s : St} {w : World} (h : Inv s w) : Shows s w := by
  refine ⟨h.cnt, h.tree, h.sorted, ?_⟩
  intro i o ho
  obtain ⟨h1, h2⟩ := h.refs i o ho
  rw [h2, h1, want]
  constructor
  · intro hz
    have hc : w.held.count i = 0 := by omega
    refine ⟨?_, by rw [← List.count_eq_zero]; exact hc⟩
    intro p hp he
    have hm : i ∈ s.tree.map (·.2) := List.mem_map.2 ⟨p, (h.tree p).2 hp, he⟩
    rw [if_pos hm] at hz
    omega
  · rintro ⟨hl, hh⟩
    rw [List.count_eq_zero.2 hh, if_neg]
    intro hm
    obtain ⟨n, hn⟩ := mem_ids.1 hm
    exact hl _ ((h.tree _).1 hn) rfl

theorem get_eff {s : St} {f : Nat → Nat} (h : RefIs s f) {i : Nat} (hi : i < s.objs.length) (hf : 1 ≤ f i) :
    ∃ s', get s i = some s' ∧ s'.tree = s.tree ∧ s'.objs.length = s.objs.length ∧
      RefIs s' (fun j => if j = i then f i + 1 else f j) := by
  have ho : s.objs[i]? = some s.objs[i] := List.getElem?_eq_getElem hi
  obtain ⟨h1, h2⟩ := h i _ ho
  have hnf : ¬ (s.objs[i].freed = true ∨ s.objs[i].refs < 1) := by
    rintro (hc | hc)
    · have := h2.1 hc; omega
    · omega
  refine ⟨{ s with objs := s.objs.set i { s.objs[i] with refs := s.objs[i].refs + 1 } },
    by rw [get, ho]; dsimp only; rw [if_neg hnf], rfl, by simp, ?_⟩
  intro j o hj
  simp only [List.getElem?_set] at hj
  by_cases hji : i = j
  · subst hji
    simp only [if_true, hi] at hj
    cases hj
    refine ⟨by simp [h1], ?_⟩
    simp only [not_or] at hnf
    constructor
    · intro hc; exact absurd hc hnf.1
    · intro hc; simp only at hc; omega
  · rw [if_neg hji] at hj
    dsimp only
    rw [if_neg (fun e : j = i => hji e.symm)]
    exact h j o hj

theorem put_eff {s : St} {f : Nat → Nat} (h : RefIs s f) {i : Nat} (hi : i < s.objs.length) (hf : 1 ≤ f i) :
    ∃ s', put s i = some s' ∧ s'.tree = s.tree ∧ s'.objs.length = s.objs.length ∧
      RefIs s' (fun j => if j = i then f i - 1 else f j) := by
  have ho : s.objs[i]? = some s.objs[i] := List.getElem?_eq_getElem hi
  obtain ⟨h1, h2⟩ := h i _ ho
  have hnf : ¬ (s.objs[i].freed = true ∨ s.objs[i].refs < 1) := by
    rintro (hc | hc)
    · have := h2.1 hc; omega
    · omega
  refine ⟨{ s with objs := s.objs.set i { s.objs[i] with
      refs := s.objs[i].refs - 1, freed := s.objs[i].refs - 1 == 0 } },
    by rw [put, ho]; dsimp only; rw [if_neg hnf], rfl, by simp, ?_⟩
  intro j o hj
  simp only [List.getElem?_set] at hj
  by_cases hji : i = j
  · subst hji
    simp only [if_true, hi] at hj
    cases hj
    exact ⟨by simp [h1], by simp⟩
  · rw [if_neg hji] at hj
    dsimp only
    rw [if_neg (fun e : j = i => hji e.symm)]
    exact h j o hj

theorem refIs_congr {s : St} {f g : Nat → Nat} (h : RefIs s f) (he : ∀ i, i < s.objs.length → f i = g i) :
    RefIs s g := by
  intro i o ho
  have hi : i < s.objs.length := by
    rcases Nat.lt_or_ge i s.objs.length with h | h
    · exact h
    · rw [List.getElem?_eq_none h] at ho; cases ho
  rw [← he i hi]
  exact h i o ho

theorem treeFind_some {t : List (Name × Nat)} {n : Name} {i : Nat} (h : treeFind t n = some i) : (n, i) ∈ t := by
  rw [treeFind] at h
  cases hf : t.find? (fun p => strcmp p.1 n == .eq) with
  | none => rw [hf] at h; cases h
  | some p =>
    rw [hf] at h
    cases h
    have h1 := List.find?_some hf
    have h2 := List.mem_of_find?_eq_some hf
    have : p.1 = n := (strcmp_eq _ _).1 (by simpa using h1)
    rw [← this]
    exact h2

theorem treeFind_none {t : List (Name × Nat)} {n : Name} (h : treeFind t n = none) : ∀ p ∈ t, p.1 ≠ n := by
  rw [treeFind, Option.map_eq_none_iff, List.find?_eq_none] at h
  intro p hp he
  exact h p hp (by rw [(strcmp_eq _ _).2 he]; rfl)

theorem mem_treeIns {n : Name} {i : Nat} {t : List (Name × Nat)} {p : Name × Nat} :
    p ∈ treeIns n i t ↔ p = (n, i) ∨ p ∈ t := by
  induction t with
  | nil => simp [treeIns]
  | cons q t ih =>
    rw [treeIns]
    split
    · simp
    · simp only [List.mem_cons, ih]
      constructor
      · rintro (h | h | h) <;> simp [h]
      · rintro (h | h | h) <;> simp [h]

theorem sorted_treeIns {n : Name} {i : Nat} {t : List (Name × Nat)}
    (h : t.Pairwise fun p q => strcmp p.1 q.1 = .lt) (hn : ∀ p ∈ t, p.1 ≠ n) :
    (treeIns n i t).Pairwise fun p q => strcmp p.1 q.1 = .lt := by
  induction t with
  | nil => simp [treeIns]
  | cons q t ih =>
    rw [List.pairwise_cons] at h
    rw [treeIns]
    split
    · rename_i hgt
      have hlt : strcmp n q.1 = .lt := (strcmp_swap _ _).1 hgt
      refine List.pairwise_cons.2 ⟨?_, List.pairwise_cons.2 h⟩
      intro p hp
      rcases List.mem_cons.1 hp with rfl | hp
      · exact hlt
      · exact strcmp_trans _ _ _ hlt (h.1 p hp)
    · rename_i hngt
      refine List.pairwise_cons.2 ⟨?_, ih h.2 (fun p hp => hn p (List.mem_cons_of_mem _ hp))⟩
      intro p hp
      rcases mem_treeIns.1 hp with rfl | hp
      · have hne : strcmp q.1 n ≠ .eq := fun e => hn q List.mem_cons_self ((strcmp_eq _ _).1 e)
        cases hc : strcmp q.1 n with
        | lt => rfl
        | eq => exact absurd hc hne
        | gt => exact absurd hc hngt
      · exact h.1 p hp

theorem ids_treeIns {n : Name} {i : Nat} {t : List (Name × Nat)} (h : (t.map (·.2)).Nodup)
    (hi : i ∉ t.map (·.2)) : ((treeIns n i t).map (·.2)).Nodup := by
  induction t with
  | nil => simp [treeIns]
  | cons q t ih =>
    simp only [List.map_cons, List.nodup_cons, List.mem_cons, not_or] at h hi
    rw [treeIns]
    split
    · simp only [List.map_cons, List.nodup_cons, List.mem_cons, not_or]
      exact ⟨hi, h⟩
    · simp only [List.map_cons, List.nodup_cons]
      refine ⟨?_, ih h.2 hi.2⟩
      intro hm
      obtain ⟨m, hm⟩ := mem_ids.1 hm
      rcases mem_treeIns.1 hm with he | he
      · cases he; exact hi.1 rfl
      · exact h.1 (mem_ids.2 ⟨m, he⟩)

/-- names are unique in a sorted tree -/
theorem sorted_name {t : List (Name × Nat)} (h : t.Pairwise fun p q => strcmp p.1 q.1 = .lt)
    {p q : Name × Nat} (hp : p ∈ t) (hq : q ∈ t) (he : p.1 = q.1) : p = q := by
  induction t with
  | nil => cases hp
  | cons a t ih =>
    rw [List.pairwise_cons] at h
    have irr : ∀ n, strcmp n n ≠ .lt := fun n hc => by rw [(strcmp_eq n n).2 rfl] at hc; cases hc
    rcases List.mem_cons.1 hp with hp' | hp' <;> rcases List.mem_cons.1 hq with hq' | hq'
    · rw [hp', hq']
    · have := h.1 q hq'
      rw [← hp', he] at this
      exact absurd this (irr _)
    · have := h.1 p hp'
      rw [← hq', he] at this
      exact absurd this (irr _)
    · exact ih h.2 hp' hq'

theorem ids_unique {t : List (Name × Nat)} (h : (t.map (·.2)).Nodup)
    {p q : Name × Nat} (hp : p ∈ t) (hq : q ∈ t) (he : p.2 = q.2) : p = q := by
  induction t with
  | nil => cases hp
  | cons a t ih =>
    simp only [List.map_cons, List.nodup_cons] at h
    rcases List.mem_cons.1 hp with hp' | hp' <;> rcases List.mem_cons.1 hq with hq' | hq'
    · rw [hp', hq']
    · subst hp'; exact absurd (List.mem_map.2 ⟨q, hq', he.symm⟩) h.1
    · subst hq'; exact absurd (List.mem_map.2 ⟨p, hp', he⟩) h.1
    · exact ih h.2 hp' hq'

theorem treeSucc_none {t : List (Name × Nat)} (hs : t.Pairwise fun p q => strcmp p.1 q.1 = .lt)
    (hn : (t.map (·.2)).Nodup) {n : Name} {i : Nat} (hm : (n, i) ∈ t) (h : treeSucc t i = none) :
    ∀ p ∈ t, strcmp n p.1 ≠ .lt := by
  induction t with
  | nil => cases hm
  | cons q t ih =>
    have irr : ∀ n, strcmp n n ≠ .lt := fun n hc => by rw [(strcmp_eq n n).2 rfl] at hc; cases hc
    rw [treeSucc] at h
    by_cases hq : q.2 = i
    · rw [if_pos hq, Option.map_eq_none_iff, List.head?_eq_none_iff] at h
      subst h
      have : (n, i) = q := by
        rcases List.mem_cons.1 hm with h | h
        · exact h
        · cases h
      subst this
      intro p hp
      rcases List.mem_cons.1 hp with rfl | hp
      · exact irr _
      · cases hp
    · rw [if_neg hq] at h
      have hm' : (n, i) ∈ t := by
        rcases List.mem_cons.1 hm with h | h
        · subst h; exact absurd rfl hq
        · exact h
      rw [List.pairwise_cons] at hs
      simp only [List.map_cons, List.nodup_cons] at hn
      intro p hp
      rcases List.mem_cons.1 hp with rfl | hp
      · intro hc
        exact irr _ (strcmp_trans _ _ _ hc (hs.1 _ hm'))
      · exact ih hs.2 hn.2 hm' h p hp

theorem treeSucc_some {t : List (Name × Nat)} (hs : t.Pairwise fun p q => strcmp p.1 q.1 = .lt)
    (hn : (t.map (·.2)).Nodup) {n : Name} {i j : Nat} (hm : (n, i) ∈ t) (h : treeSucc t i = some j) :
    ∃ m, (m, j) ∈ t ∧ strcmp n m = .lt ∧ ∀ p ∈ t, strcmp n p.1 = .lt → p = (m, j) ∨ strcmp m p.1 = .lt := by
  induction t with
  | nil => cases hm
  | cons q t ih =>
    have irr : ∀ n, strcmp n n ≠ .lt := fun n hc => by rw [(strcmp_eq n n).2 rfl] at hc; cases hc
    rw [treeSucc] at h
    rw [List.pairwise_cons] at hs
    simp only [List.map_cons, List.nodup_cons] at hn
    by_cases hq : q.2 = i
    · rw [if_pos hq] at h
      have hqn : (n, i) = q := by
        rcases List.mem_cons.1 hm with h | h
        · exact h
        · exact absurd (mem_ids.2 ⟨n, hq ▸ h⟩) hn.1
      subst hqn
      cases t with
      | nil => cases h
      | cons r t =>
        simp only [List.head?_cons, Option.map_some, Option.some.injEq] at h
        subst h
        refine ⟨r.1, List.mem_cons_of_mem _ List.mem_cons_self, hs.1 r List.mem_cons_self, ?_⟩
        intro p hp hlt
        rcases List.mem_cons.1 hp with rfl | hp
        · exact absurd hlt (irr _)
        · rcases List.mem_cons.1 hp with rfl | hp
          · exact Or.inl rfl
          · exact Or.inr ((List.pairwise_cons.1 hs.2).1 p hp)
    · rw [if_neg hq] at h
      have hm' : (n, i) ∈ t := by
        rcases List.mem_cons.1 hm with h | h
        · subst h; exact absurd rfl hq
        · exact h
      obtain ⟨m, h1, h2, h3⟩ := ih hs.2 hn.2 hm' h
      refine ⟨m, List.mem_cons_of_mem _ h1, h2, ?_⟩
      intro p hp hlt
      rcases List.mem_cons.1 hp with rfl | hp
      · exact absurd (strcmp_trans _ _ _ hlt (hs.1 _ hm')) (irr _)
      · exact h3 p hp hlt

theorem want_held {t : List (Name × Nat)} {h : List Nat} {i : Nat} (hm : i ∈ h) : 1 ≤ want t h i := by
  have := List.count_pos_iff.2 hm
  rw [want]; omega

theorem want_tree {t : List (Name × Nat)} {h : List Nat} {n : Name} {i : Nat} (hm : (n, i) ∈ t) :
    1 ≤ want t h i := by
  rw [want, if_pos (mem_ids.2 ⟨n, hm⟩)]; omega

theorem want_cons (t : List (Name × Nat)) (h : List Nat) (i j : Nat) :
    want t (i :: h) j = if j = i then want t h i + 1 else want t h j := by
  rw [want, want, want, List.count_cons]
  by_cases he : j = i
  · subst he; simp; omega
  · have : ¬ i = j := fun e => he e.symm
    simp [he, this]

theorem want_erase {t : List (Name × Nat)} {h : List Nat} {i : Nat} (hm : i ∈ h) (j : Nat) :
    want t (h.erase i) j = if j = i then want t h i - 1 else want t h j := by
  have hp := List.count_pos_iff.2 hm
  rw [want, want, want]
  by_cases he : j = i
  · subst he; rw [if_pos rfl, List.count_erase_self]; omega
  · rw [if_neg he, List.count_erase_of_ne he]

/-- taking a reference to an object that has one -/
theorem inv_get {s : St} {w : World} (h : Inv s w) {i : Nat} (hi : i < s.objs.length)
    (hw : 1 ≤ want s.tree w.held i) :
    ∃ s', get s i = some s' ∧ Inv s' { w with held := i :: w.held } := by
  obtain ⟨s', h1, h2, h3, h4⟩ := get_eff h.refs hi hw
  refine ⟨s', h1, ⟨h3.trans h.cnt, by rw [h2]; exact h.tree, by rw [h2]; exact h.sorted,
    by rw [h2]; exact h.ids, by rw [h2, h3]; exact h.bound, ?_, ?_⟩⟩
  · intro j hj
    rw [h3]
    rcases List.mem_cons.1 hj with rfl | hj
    · exact hi
    · exact h.heldB j hj
  · rw [h2]
    refine refIs_congr h4 (fun j _ => ?_)
    rw [want_cons]

theorem inv_put {s : St} {w : World} (h : Inv s w) {i : Nat} (hi : i ∈ w.held) :
    ∃ s', put s i = some s' ∧ Inv s' { w with held := w.held.erase i } := by
  obtain ⟨s', h1, h2, h3, h4⟩ := put_eff h.refs (h.heldB i hi) (want_held hi)
  refine ⟨s', h1, ⟨h3.trans h.cnt, by rw [h2]; exact h.tree, by rw [h2]; exact h.sorted,
    by rw [h2]; exact h.ids, by rw [h2, h3]; exact h.bound, ?_, ?_⟩⟩
  · intro j hj
    rw [h3]
    exact h.heldB j (List.mem_of_mem_erase hj)
  · rw [h2]
    refine refIs_congr h4 (fun j _ => ?_)
    rw [want_erase hi]

theorem mem_treeDel {t : List (Name × Nat)} {i : Nat} {p : Name × Nat} :
    p ∈ treeDel t i ↔ p ∈ t ∧ p.2 ≠ i := by
  simp [treeDel]

/-- *Every call does what the specification says*, never crashes, and the state goes on showing the
world. -/
theorem step_spec {s : St} {w : World} (h : Inv s w) {op : Op} (hl : Legal w op) :
    ∃ s' r w', step s op = some (s', r) ∧ Spec w op r w' ∧ Inv s' w' := by
  cases op with
  | new n =>
    rw [step, new]
    cases hf : treeFind s.tree n with
    | some i =>
      exact ⟨_, _, w, rfl, .newExists ⟨_, (h.tree _).1 (treeFind_some hf), rfl⟩, h⟩
    | none =>
      have hn := treeFind_none hf
      have hfresh : s.objs.length ∉ s.tree.map (·.2) := by
        intro hm
        obtain ⟨m, hm⟩ := mem_ids.1 hm
        have := h.bound _ hm
        simp at this
      refine ⟨_, _, ⟨(n, w.cnt) :: w.live, w.cnt + 1, w.held⟩, rfl, ?_, ?_⟩
      · rw [h.cnt]; exact .newOk (fun p hp => hn p ((h.tree p).2 hp))
      · refine ⟨by simp [h.cnt], ?_, sorted_treeIns h.sorted hn, ids_treeIns h.ids hfresh, ?_, ?_, ?_⟩
        · intro p
          show p ∈ treeIns _ _ _ ↔ _
          rw [mem_treeIns, h.cnt, h.tree p, List.mem_cons]
        · intro p hp
          show p.2 < (s.objs ++ _).length
          rw [List.length_append, List.length_singleton]
          rcases mem_treeIns.1 hp with rfl | hp
          · show s.objs.length < _; omega
          · have := h.bound p hp; omega
        · intro i hi
          show i < (s.objs ++ _).length
          rw [List.length_append]
          have := h.heldB i hi
          omega
        · intro i o ho
          show o.refs = want (treeIns n s.objs.length s.tree) w.held i ∧ _
          have hnh : s.objs.length ∉ w.held := fun hm => by have := h.heldB _ hm; omega
          rw [List.getElem?_append] at ho
          by_cases hi : i < s.objs.length
          · rw [if_pos hi] at ho
            obtain ⟨h1, h2⟩ := h.refs i o ho
            refine ⟨?_, h2⟩
            rw [h1, want, want]
            congr 1
            have : i ∈ (treeIns n s.objs.length s.tree).map (·.2) ↔ i ∈ s.tree.map (·.2) := by
              rw [mem_ids, mem_ids]
              constructor
              · rintro ⟨m, hm⟩
                rcases mem_treeIns.1 hm with he | he
                · cases he; omega
                · exact ⟨m, he⟩
              · rintro ⟨m, hm⟩; exact ⟨m, mem_treeIns.2 (Or.inr hm)⟩
            simp only [this]
          · rw [if_neg hi] at ho
            have hi0 : i = s.objs.length := by
              rcases Nat.lt_or_ge (i - s.objs.length) 1 with h | h
              · omega
              · rw [List.getElem?_eq_none (by simpa using h)] at ho; cases ho
            subst hi0
            simp only [Nat.sub_self, List.getElem?_cons_zero, Option.some.injEq] at ho
            subst ho
            rw [want, List.count_eq_zero.2 hnh, if_pos (mem_ids.2 ⟨n, mem_treeIns.2 (Or.inl rfl)⟩)]
            simp
  | find n =>
    rw [step, find]
    cases hf : treeFind s.tree n with
    | none => exact ⟨_, _, w, rfl, .findNone (fun p hp => treeFind_none hf p ((h.tree p).2 hp)), h⟩
    | some i =>
      have hm := treeFind_some hf
      obtain ⟨s', h1, h2⟩ := inv_get h (h.bound _ hm) (want_tree hm)
      exact ⟨s', _, _, by dsimp only at h1 ⊢; rw [h1]; rfl, .findOk ((h.tree _).1 hm), h2⟩
  | get i =>
    obtain ⟨s', h1, h2⟩ := inv_get h (h.heldB i hl) (want_held hl)
    exact ⟨s', _, _, by rw [step, h1]; rfl, .get, h2⟩
  | put i =>
    obtain ⟨s', h1, h2⟩ := inv_put h hl
    exact ⟨s', _, _, by rw [step, h1]; rfl, .put, h2⟩
  | unlink n =>
    rw [step, unlink]
    cases hf : treeFind s.tree n with
    | none => exact ⟨_, _, w, rfl, .unlinkNone (fun p hp => treeFind_none hf p ((h.tree p).2 hp)), h⟩
    | some i =>
      have hm := treeFind_some hf
      have hi := h.bound _ hm
      obtain ⟨s1, h1, h2, h3, h4⟩ := get_eff h.refs hi (want_tree hm)
      obtain ⟨s2, g1, g2, g3, g4⟩ := put_eff (s := { s1 with tree := treeDel s1.tree i }) h4 (i := i)
        (by show i < s1.objs.length; rw [h3]; exact hi) (by dsimp only; rw [if_pos rfl]; omega)
      obtain ⟨s3, k1, k2, k3, k4⟩ := put_eff (s := s2) g4 (i := i)
        (by rw [g3]; show i < s1.objs.length; rw [h3]; exact hi)
        (by
          have := want_tree (h := w.held) hm
          dsimp only; rw [if_pos rfl, if_pos rfl]; omega)
      have hl3 : s3.objs.length = s.objs.length := by rw [k3, g3]; exact h3
      have ht3 : s3.tree = treeDel s.tree i := by rw [k2, g2]; show treeDel s1.tree i = _; rw [h2]
      refine ⟨s3, .done, { w with live := w.live.filter fun p => p.1 ≠ n }, ?_, .unlinkOk ((h.tree _).1 hm), ?_⟩
      · dsimp only
        simp only at h1
        rw [h1]
        simp only [Option.bind_some]
        rw [g1]
        simp only [Option.bind_some]
        rw [k1]
        rfl
      · refine ⟨hl3.trans h.cnt, ?_, ?_, ?_, ?_, ?_, ?_⟩
        · intro p
          rw [ht3, mem_treeDel, h.tree]
          simp only [List.mem_filter, decide_eq_true_eq]
          constructor
          · rintro ⟨q1, q2⟩
            refine ⟨q1, fun he => q2 ?_⟩
            have := sorted_name h.sorted ((h.tree p).2 q1) hm he
            rw [this]
          · rintro ⟨q1, q2⟩
            refine ⟨q1, fun he => q2 ?_⟩
            have := ids_unique h.ids ((h.tree p).2 q1) hm he
            rw [this]
        · rw [ht3]; exact h.sorted.sublist List.filter_sublist
        · rw [ht3]; exact h.ids.sublist (List.Sublist.map _ List.filter_sublist)
        · intro p hp
          rw [ht3] at hp
          rw [hl3]
          exact h.bound p (mem_treeDel.1 hp).1
        · intro j hj
          rw [hl3]; exact h.heldB j hj
        · rw [ht3]
          refine refIs_congr k4 (fun j _ => ?_)
          dsimp only
          by_cases hj : j = i
          · subst hj
            rw [if_pos rfl, if_pos rfl, if_pos rfl]
            rw [want, want, if_pos (mem_ids.2 ⟨n, hm⟩), if_neg]
            · omega
            · intro hm'
              obtain ⟨m, hm'⟩ := mem_ids.1 hm'
              exact (mem_treeDel.1 hm').2 rfl
          · rw [if_neg hj, if_neg hj, if_neg hj, want, want]
            congr 1
            have : j ∈ (treeDel s.tree i).map (·.2) ↔ j ∈ s.tree.map (·.2) := by
              rw [mem_ids, mem_ids]
              constructor
              · rintro ⟨m, hm⟩; exact ⟨m, (mem_treeDel.1 hm).1⟩
              · rintro ⟨m, hm⟩; exact ⟨m, mem_treeDel.2 ⟨hm, hj⟩⟩
            simp only [this]
  | first =>
    rw [step, first]
    cases ht : s.tree with
    | nil =>
      refine ⟨_, _, w, rfl, .firstNone ?_, h⟩
      rw [List.eq_nil_iff_forall_not_mem]
      intro p hp
      have := (h.tree p).2 hp
      rw [ht] at this
      cases this
    | cons p t =>
      have hm : (p.1, p.2) ∈ s.tree := by rw [ht]; exact List.mem_cons_self
      obtain ⟨s', h1, h2⟩ := inv_get h (h.bound _ hm) (want_tree hm)
      refine ⟨s', _, _, by dsimp only at h1 ⊢; rw [h1]; rfl, .firstOk ((h.tree _).1 hm) ?_, h2⟩
      intro q hq
      have hq' := (h.tree q).2 hq
      have hs := h.sorted
      rw [ht] at hq' hs
      rcases List.mem_cons.1 hq' with rfl | hq'
      · exact Or.inl rfl
      · exact Or.inr ((List.pairwise_cons.1 hs).1 q hq')
  | next i =>
    obtain ⟨hh, n, hn⟩ := hl
    have hm := (h.tree _).2 hn
    rw [step, next]
    cases hf : treeSucc s.tree i with
    | none =>
      obtain ⟨s', h1, h2⟩ := inv_put h hh
      refine ⟨s', _, _, by dsimp only; rw [h1]; rfl, .nextNone hn ?_, h2⟩
      intro p hp
      exact treeSucc_none h.sorted h.ids hm hf p ((h.tree p).2 hp)
    | some j =>
      obtain ⟨m, q1, q2, q3⟩ := treeSucc_some h.sorted h.ids hm hf
      obtain ⟨s1, h1, h2⟩ := inv_get h (h.bound _ q1) (want_tree q1)
      obtain ⟨s2, g1, g2⟩ := inv_put h2 (i := i) (List.mem_cons_of_mem _ hh)
      refine ⟨s2, _, _, ?_, .nextOk hn ((h.tree _).1 q1) q2 (fun p hp => q3 p ((h.tree p).2 hp)), g2⟩
      dsimp only at h1 ⊢
      rw [h1]
      simp only [Option.bind_some]
      rw [g1]
      rfl

theorem inv_init : Inv init .empty :=
  ⟨rfl, (fun p => Iff.rfl), List.Pairwise.nil, List.nodup_nil, (fun p hp => by cases hp),
    (fun i hi => by cases hi), fun i o ho => by simp [init] at ho⟩

/-- a history that follows the specification, with the state it leads to -/
inductive Run : St → World → Prop
  | init : Run init .empty
  | step {s s' : St} {w w' : World} {op : Op} {r : Res} : Run s w → Legal w op → step s op = some (s', r) →
    Spec w op r w' → Run s' w'

theorem spec_det {w w1 w2 : World} {op : Op} {r1 r2 : Res} {s : St} (hi : Inv s w) (h1 : Spec w op r1 w1)
    (h2 : Spec w op r2 w2) : r1 = r2 ∧ w1 = w2 := by
  have irr : ∀ n, strcmp n n ≠ .lt := fun n hc => by rw [(strcmp_eq n n).2 rfl] at hc; cases hc
  have un : ∀ {p q : Name × Nat}, p ∈ w.live → q ∈ w.live → p.1 = q.1 → p = q := fun hp hq he =>
    sorted_name hi.sorted ((hi.tree _).2 hp) ((hi.tree _).2 hq) he
  have ui : ∀ {p q : Name × Nat}, p ∈ w.live → q ∈ w.live → p.2 = q.2 → p = q := fun hp hq he =>
    ids_unique hi.ids ((hi.tree _).2 hp) ((hi.tree _).2 hq) he
  cases h1 with
  | newOk a =>
    cases h2 with
    | newOk b => exact ⟨rfl, rfl⟩
    | newExists b => obtain ⟨p, hp, he⟩ := b; exact absurd he (a p hp)
  | newExists a =>
    cases h2 with
    | newOk b => obtain ⟨p, hp, he⟩ := a; exact absurd he (b p hp)
    | newExists b => exact ⟨rfl, rfl⟩
  | findOk a =>
    cases h2 with
    | findOk b => have := un a b rfl; cases this; exact ⟨rfl, rfl⟩
    | findNone b => exact absurd rfl (b _ a)
  | findNone a =>
    cases h2 with
    | findOk b => exact absurd rfl (a _ b)
    | findNone b => exact ⟨rfl, rfl⟩
  | get => cases h2; exact ⟨rfl, rfl⟩
  | put => cases h2; exact ⟨rfl, rfl⟩
  | unlinkOk a =>
    cases h2 with
    | unlinkOk b => exact ⟨rfl, rfl⟩
    | unlinkNone b => exact absurd rfl (b _ a)
  | unlinkNone a =>
    cases h2 with
    | unlinkOk b => exact absurd rfl (a _ b)
    | unlinkNone b => exact ⟨rfl, rfl⟩
  | firstOk a a' =>
    cases h2 with
    | firstOk b b' =>
      rcases a' _ b with h | h
      · cases h; exact ⟨rfl, rfl⟩
      · rcases b' _ a with g | g
        · cases g; exact ⟨rfl, rfl⟩
        · exact absurd (strcmp_trans _ _ _ h g) (irr _)
    | firstNone b => rw [b] at a; cases a
  | firstNone a =>
    cases h2 with
    | firstOk b b' => rw [a] at b; cases b
    | firstNone b => exact ⟨rfl, rfl⟩
  | nextOk a1 a2 a3 a4 =>
    cases h2 with
    | nextOk b1 b2 b3 b4 =>
      have := ui a1 b1 rfl
      cases this
      rcases a4 _ b2 b3 with h | h
      · cases h; exact ⟨rfl, rfl⟩
      · rcases b4 _ a2 a3 with g | g
        · cases g; exact ⟨rfl, rfl⟩
        · exact absurd (strcmp_trans _ _ _ h g) (irr _)
    | nextNone b1 b2 =>
      have := ui a1 b1 rfl
      cases this
      exact absurd a3 (b2 _ a2)
  | nextNone a1 a2 =>
    cases h2 with
    | nextOk b1 b2 b3 b4 =>
      have := ui a1 b1 rfl
      cases this
      exact absurd b3 (a2 _ b2)
    | nextNone b1 b2 => exact ⟨rfl, rfl⟩

theorem run_inv {s : St} {w : World} (h : Run s w) : Inv s w := by
  induction h with
  | init => exact inv_init
  | @step s s' w w' op r _ hl he hs ih =>
    obtain ⟨s1, r1, w1, q1, q2, q3⟩ := step_spec ih hl
    rw [q1] at he
    cases he
    obtain ⟨_, e⟩ := spec_det ih hs q2
    rw [e]
    exact q3

/-! ## the property -/

/-- *Configuration objects*: in every history of legal calls the state shows the world (objects by name
in name order, destroyed exactly when the last reference is gone), and the next legal call does not crash
and does what the specification says. -/
theorem cfgobj_spec {s : St} {w : World} (h : Run s w) :
    Shows s w ∧ ∀ op, Legal w op → ∃ s' r w', step s op = some (s', r) ∧ Spec w op r w' ∧ Run s' w' := by
  have hi := run_inv h
  refine ⟨inv_shows hi, fun op hl => ?_⟩
  obtain ⟨s', r, w', h1, h2, _⟩ := step_spec hi hl
  exact ⟨s', r, w', h1, h2, .step h hl h1 h2⟩

/-- `first`, then `next` until `NULL`, as every user of the iterator does (for instance
`ldmsd_updtr.c:1434`): the objects visited -/
def iterFrom : Nat → St → Res → Option (St × List Nat)
  | _, s, .null => some (s, [])
  | 0, _, _ => none
  | k + 1, s, .obj i => (next s i).bind fun (s', r) => (iterFrom k s' r).map fun (s'', l) => (s'', i :: l)
  | _, _, _ => none

theorem treeSucc_split {a : List (Name × Nat)} {p : Name × Nat} {b : List (Name × Nat)}
    (hn : ((a ++ p :: b).map (·.2)).Nodup) : treeSucc (a ++ p :: b) p.2 = b.head?.map (·.2) := by
  induction a with
  | nil => simp [treeSucc]
  | cons q a ih =>
    simp only [List.cons_append, List.map_cons, List.nodup_cons] at hn
    rw [List.cons_append, treeSucc, if_neg, ih hn.2]
    intro he
    apply hn.1
    rw [he]
    simp

/-- *An iteration visits every object once, in name order*, and gives back every reference it took. -/
theorem iteration {s : St} {w : World} (h : Run s w) :
    ∃ s1 r s2, first s = some (s1, r) ∧ iterFrom s.tree.length s1 r = some (s2, s.tree.map (·.2)) ∧
      Shows s2 w := by
  have key : ∀ (b a : List (Name × Nat)) (p : Name × Nat) (s1 : St) (w : World), Inv s1 w →
      s1.tree = a ++ p :: b → p.2 ∈ w.held →
      ∃ s2, iterFrom (b.length + 1) s1 (.obj p.2) = some (s2, p.2 :: b.map (·.2)) ∧
        Inv s2 { w with held := w.held.erase p.2 } := by
    intro b
    induction b with
    | nil =>
      intro a p s1 w hi ht hp
      obtain ⟨s', h1, h2⟩ := inv_put hi hp
      refine ⟨s', ?_, h2⟩
      rw [iterFrom, next, ht, treeSucc_split (by rw [← ht]; exact hi.ids)]
      simp only [List.head?_nil, Option.map_none, h1, Option.map_some, Option.bind_some]
      rfl
    | cons q b ih =>
      intro a p s1 w hi ht hp
      have hq : (q.1, q.2) ∈ s1.tree := by rw [ht]; simp
      obtain ⟨s2, h1, h2⟩ := inv_get hi (hi.bound _ hq) (want_tree hq)
      obtain ⟨s3, g1, g2⟩ := inv_put h2 (i := p.2) (List.mem_cons_of_mem _ hp)
      have hne : q.2 ≠ p.2 := by
        intro he
        have hn := hi.ids
        rw [ht, List.map_append, List.map_cons, List.map_cons] at hn
        have := (List.nodup_append.1 hn).2.1
        simp only [List.nodup_cons, List.mem_cons, not_or] at this
        exact this.1.1 he.symm
      have hheld : (q.2 :: w.held).erase p.2 = q.2 :: w.held.erase p.2 := by
        rw [List.erase_cons_tail (by simpa using hne)]
      simp only [hheld] at g2
      have ht3 : s3.tree = (a ++ [p]) ++ q :: b := by
        have e1 : s2.tree = s1.tree := by
          rw [get] at h1
          split at h1
          · cases h1
          · split at h1
            · cases h1
            · cases h1; rfl
        have e2 : s3.tree = s2.tree := by
          rw [put] at g1
          split at g1
          · cases g1
          · split at g1
            · cases g1
            · cases g1; rfl
        rw [e2, e1, ht]; simp
      obtain ⟨s4, k1, k2⟩ := ih (a ++ [p]) q s3 _ g2 ht3 List.mem_cons_self
      refine ⟨s4, ?_, ?_⟩
      · rw [List.length_cons, iterFrom, next, ht, treeSucc_split (by rw [← ht]; exact hi.ids)]
        simp only [List.head?_cons, Option.map_some]
        simp only at h1
        rw [h1]
        simp only [Option.bind_some]
        rw [g1]
        simp only [Option.map_some, Option.bind_some]
        rw [k1]
        rfl
      · simp only [List.erase_cons_head] at k2
        exact k2
  have hi := run_inv h
  cases ht : s.tree with
  | nil => exact ⟨s, .null, s, by rw [first, ht], rfl, inv_shows hi⟩
  | cons p b =>
    have hp : (p.1, p.2) ∈ s.tree := by rw [ht]; exact List.mem_cons_self
    obtain ⟨s1, h1, h2⟩ := inv_get hi (hi.bound _ hp) (want_tree hp)
    have e1 : s1.tree = s.tree := by
      have h1' := h1
      rw [get] at h1'
      split at h1'
      · cases h1'
      · split at h1'
        · cases h1'
        · cases h1'; rfl
    obtain ⟨s2, k1, k2⟩ := key b [] p s1 _ h2 (by rw [e1, ht]; rfl) List.mem_cons_self
    simp only [List.erase_cons_head] at k2
    refine ⟨s1, .obj p.2, s2, ?_, k1, inv_shows k2⟩
    rw [first, ht]
    simp only at h1
    dsimp only
    rw [h1]
    rfl

/-- **Defect**: `ldmsd_cfgobj_del` takes a reference to find the object and gives back one, so the
reference of the tree is never given back: the object cannot be found any more, nobody holds a reference,
and it is never destroyed.  The same deletion with `unlink` destroys it. -/
theorem cfgobj_del_leaks_defect :
    ∃ s1 s2 s3, step init (.new [97]) = some (s1, .obj 0) ∧ cfgobjDel s1 [97] = some (s2, .done) ∧
      treeFind s2.tree [97] = none ∧ s2.objs[0]? = some ⟨1, false⟩ ∧
      unlink s1 [97] = some (s3, .done) ∧ s3.objs[0]? = some ⟨0, true⟩ :=
  ⟨_, _, _, rfl, rfl, rfl, rfl, rfl, rfl⟩

/-- two objects, one referenced, then unlinked -/
example : ∃ s, Run s ⟨[([97], 1)], 2, [0]⟩ ∧ s.objs = [⟨1, false⟩, ⟨1, false⟩] := by
  have h1 : Run _ _ := .step (op := .new [98]) .init trivial rfl (.newOk (fun p hp => by cases hp))
  have h2 : Run _ _ := .step (op := .new [97]) h1 trivial rfl (.newOk (by simp [World.empty]))
  have h3 : Run _ _ := .step (op := .find [98]) h2 trivial rfl (.findOk (i := 0) (by simp [World.empty]))
  have h4 : Run _ _ := .step (op := .unlink [98]) h3 trivial rfl (.unlinkOk (i := 0) (by simp [World.empty]))
  exact ⟨_, h4, rfl⟩

end Verif.CfgObj
