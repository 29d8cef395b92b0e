import Verif.OvisHeap.Model
import Verif.BinHeap.Proofs

/-!
# Properties of the array heap of `lib/src/coll/heap.c` (C07)
-/

namespace Verif.OvisHeap

open Verif.BinHeap

/-- Histories of inserts (of nodes not in the heap) and pops; `live` lists the nodes inserted and not
popped since. -/
inductive Reach (key : Nat → Int) : St Nat → List Nat → Prop where
  | create (cap : Nat) : Reach key (create cap) []
  | insert {s live x s'} : Reach key s live → x ∉ live → heapInsert key s x = some s' →
      Reach key s' (x :: live)
  | pop {s live s' x} : Reach key s live → heapPop key s = (s', some x) →
      Reach key s' (live.filter (· ≠ x))

/-- Histories of inserts only. -/
inductive Filled (key : Nat → Int) : St Nat → List Nat → Prop where
  | create (cap : Nat) : Filled key (create cap) []
  | insert {s live x s'} : Filled key s live → x ∉ live → heapInsert key s x = some s' →
      Filled key s' (x :: live)

theorem lt_sw (key : Nat → Int) : StrictWeak (lt key) := by
  constructor
  · intro a; simp [lt]
  · intro a b c; simp [lt]; omega
  · intro a b c; simp [lt]; omega

theorem par_decr : Decr par := by intro c h; unfold par; omega

structure Ok (s : St Nat) (live : List Nat) : Prop where
  good : Good s
  mem : ∀ y, y ∈ contents s ↔ y ∈ live
  nodup : live.Nodup

theorem ok_len {s : St Nat} {live : List Nat} (h : Ok s live) : s.len = live.length := by
  have h1 : (contents s).Perm live :=
    (List.perm_ext_iff_of_nodup (good_nodup h.good) h.nodup).2 h.mem
  simpa [contents] using h1.length_eq

theorem ok_create (cap : Nat) : Ok (create cap) [] := by
  refine ⟨⟨?_, ?_⟩, ?_, List.nodup_nil⟩
  · intro i j hi; exact absurd hi (Nat.not_lt_zero _)
  · intro i hi; exact absurd hi (Nat.not_lt_zero _)
  · intro y; simp [contents, create]

/-- inserting, whatever the order of the array -/
theorem ok_insert {key : Nat → Int} {s s' : St Nat} {live : List Nat} (h : Ok s live) {x : Nat}
    (hx : x ∉ live) (hi : heapInsert key s x = some s') :
    Ok s' (x :: live) ∧ s'.len = s.len + 1 ∧ s'.cap = s.cap ∧ s.len ≠ s.cap := by
  unfold heapInsert at hi
  have hcap : s.len ≠ s.cap := by
    intro hc; simp [BinHeap.insert, hc] at hi
  -- the order relation does not matter for the contents: use the structure lemma
  have hxc : x ∉ contents s := fun hc => hx ((h.mem x).1 hc)
  have hx' : ∀ i, i < s.len → s.slots i ≠ x := by
    intro i hi he; exact hxc (mem_contents.2 ⟨i, hi, he⟩)
  simp only [BinHeap.insert, hcap, if_false, Option.some.injEq] at hi
  let s1 : St Nat := { put s s.len x with len := s.len + 1 }
  have hs1 : s1.slots = upd s.slots s.len x := rfl
  have hl1 : s1.len = s.len + 1 := rfl
  have hself : s1.slots s.len = x := by rw [hs1]; exact upd_self _ _ _
  have hold : ∀ i, i ≠ s.len → s1.slots i = s.slots i := by
    intro i hi; rw [hs1]; exact upd_ne _ _ hi
  have hfill : fill s1 s.len x = s1.slots := by
    have := fill_self s1 s.len; rwa [hself] at this
  have hp : Partial s1 s.len x := by
    refine ⟨by omega, ?_, ?_⟩
    · rw [hfill]
      intro i j hi hj he
      by_cases h1 : i = s.len <;> by_cases h2 : j = s.len
      · omega
      · rw [h1, hself, hold j h2] at he; exact absurd he.symm (hx' j (by omega))
      · rw [h2, hself, hold i h1] at he; exact absurd he (hx' i (by omega))
      · rw [hold i h1, hold j h2] at he; exact h.good.inj i j (by omega) (by omega) he
    · intro i hi hne
      rw [hold i hne]
      show upd s.idx x _ (s.slots i) = _
      rw [upd_ne _ _ (hx' i (by omega))]
      exact h.good.idx i (by omega)
  have hsm := floatUp_same par_decr (lt := lt key) s.len s1 s.len x hp
  rw [show floatUp par (lt key) s.len s1 s.len x = s' from hi] at hsm
  refine ⟨⟨hsm.good, ?_, List.nodup_cons.2 ⟨hx, h.nodup⟩⟩, hsm.len, hsm.cap, hcap⟩
  intro y
  have hm := hsm.mem y
  rw [hfill] at hm
  rw [mem_contents, hsm.len, hm]
  constructor
  · rintro ⟨i, hi, he⟩
    by_cases h1 : i = s.len
    · rw [h1, hself] at he; simp [he]
    · rw [hold i h1] at he
      exact List.mem_cons_of_mem _ ((h.mem y).1 (mem_contents.2 ⟨i, by omega, he⟩))
  · intro hy
    rcases List.mem_cons.1 hy with rfl | hy
    · exact ⟨s.len, by omega, hself⟩
    · obtain ⟨i, hi, he⟩ := mem_contents.1 ((h.mem y).2 hy)
      exact ⟨i, by omega, by rw [hold i (by omega)]; exact he⟩

theorem ok_pop {key : Nat → Int} {s s' : St Nat} {live : List Nat} (h : Ok s live) {x : Nat}
    (hp : heapPop key s = (s', some x)) :
    Ok s' (live.filter (· ≠ x)) ∧ x ∈ live ∧ s'.len + 1 = s.len ∧ s'.cap = s.cap ∧ s'.idx x = -1 := by
  unfold heapPop at hp
  split at hp
  · cases hp
  · rename_i hl
    simp only [Prod.mk.injEq, Option.some.injEq] at hp
    obtain ⟨rfl, rfl⟩ := hp
    have hr := removeSink_same (lt := lt key) h.good (c := 0) (by omega)
    refine ⟨⟨hr.good, ?_, h.nodup.filter _⟩, (h.mem _).1 (mem_contents.2 ⟨0, by omega, rfl⟩), hr.len,
      hr.cap, ?_⟩
    · intro y; rw [hr.mem, h.mem]; simp
    · rw [hr.idx _ (by rw [hr.mem]; simp)]; simp

theorem reach_ok {key : Nat → Int} {s : St Nat} {live : List Nat} (h : Reach key s live) : Ok s live := by
  induction h with
  | create cap => exact ok_create cap
  | insert _ hx hi ih => exact (ok_insert ih hx hi).1
  | pop _ hp ih => exact (ok_pop ih hp).1

theorem filled_reach {key : Nat → Int} {s : St Nat} {live : List Nat} (h : Filled key s live) :
    Reach key s live := by
  induction h with
  | create cap => exact .create cap
  | insert _ hx hi ih => exact .insert ih hx hi

theorem filled_ordered {key : Nat → Int} {s : St Nat} {live : List Nat} (h : Filled key s live) :
    Ordered par (lt key) s.slots s.len := by
  induction h with
  | create cap => intro i h0 hi; exact absurd hi (Nat.not_lt_zero _)
  | insert hf hx hi ih =>
    have hok := reach_ok (filled_reach hf)
    have hcap := (ok_insert hok hx hi).2.2.2
    obtain ⟨s'', e, _, ho, _⟩ := insert_ok par_decr (lt_sw key) hok.good ih
      (fun hc => hx ((hok.mem _).1 hc)) hcap
    unfold heapInsert at hi
    rw [hi] at e; cases e; exact ho

/-- C07: after any history of inserts and pops the heap holds exactly the nodes inserted and not popped,
each once, and `ovis_heap_size` is their number. -/
theorem heap_contents {key : Nat → Int} {s : St Nat} {live : List Nat} (h : Reach key s live) :
    (contents s).Perm live ∧ live.Nodup ∧ s.len = live.length :=
  ⟨(List.perm_ext_iff_of_nodup (good_nodup (reach_ok h).good) (reach_ok h).nodup).2 (reach_ok h).mem,
    (reach_ok h).nodup, ok_len (reach_ok h)⟩

/-- C07: an insert fails exactly when the heap is full. -/
theorem heap_insert_fails_iff {key : Nat → Int} {s : St Nat} {live : List Nat} (h : Reach key s live)
    (x : Nat) : heapInsert key s x = none ↔ live.length = s.cap := by
  rw [← ok_len (reach_ok h)]
  unfold heapInsert BinHeap.insert
  split <;> simp_all

/-- C07: a pop returns a node of the heap and removes exactly that one; it returns nothing exactly when
the heap is empty. -/
theorem heap_pop_removes_one {key : Nat → Int} {s s' : St Nat} {live : List Nat} (h : Reach key s live)
    {r : Option Nat} (hp : heapPop key s = (s', r)) :
    (r = none ∧ live = [] ∧ s' = s) ∨
    (∃ x, r = some x ∧ x ∈ live ∧ (contents s').Perm (live.filter (· ≠ x)) ∧ s'.idx x = -1) := by
  have hok := reach_ok h
  have hlen := ok_len hok
  cases r with
  | none =>
    left
    unfold heapPop at hp
    split at hp
    · simp only [Prod.mk.injEq] at hp
      refine ⟨rfl, ?_, hp.1.symm⟩
      cases live with
      | nil => rfl
      | cons a l => simp at hlen; omega
    · cases hp
  | some x =>
    right
    obtain ⟨h1, h2, _, _, h5⟩ := ok_pop hok hp
    exact ⟨x, rfl, h2, (heap_contents (.pop h hp)).1, h5⟩

/-- C07: a heap that has only been filled has a least node on top, and the pop that follows returns it.
Missing for the full claim: pops after pops, where it is false (`heap_pop_not_min_defect`). -/
theorem heap_pop_min_partial {key : Nat → Int} {s s' : St Nat} {live : List Nat} (h : Filled key s live)
    {x : Nat} (hp : heapPop key s = (s', some x)) : x ∈ live ∧ ∀ y ∈ live, key x ≤ key y := by
  have hok := reach_ok (filled_reach h)
  refine ⟨(ok_pop hok hp).2.1, ?_⟩
  intro y hy
  unfold heapPop at hp
  split at hp
  · cases hp
  · simp only [Prod.mk.injEq, Option.some.injEq] at hp
    obtain ⟨c, hc, he⟩ := mem_contents.1 ((hok.mem y).2 hy)
    have := ordered_top par_decr (lt_sw key) (filled_ordered h) c hc
    rw [he, hp.2] at this
    simpa [lt] using this

/-! ### what goes wrong -/

/-- a script of inserts (`some x`) and pops (`none`) -/
def run (key : Nat → Int) (s : St Nat) : List (Option Nat) → St Nat
  | [] => s
  | some x :: l => run key ((heapInsert key s x).getD s) l
  | none :: l => run key (heapPop key s).1 l

/-- the key of a node is its number -/
def idKey (x : Nat) : Int := x

theorem ins_reach {key : Nat → Int} {s : St Nat} {live : List Nat} (h : Reach key s live) (x : Nat)
    (hx : x ∉ live) (hr : (heapInsert key s x).isSome = true) :
    Reach key ((heapInsert key s x).getD s) (x :: live) := by
  cases hi : heapInsert key s x with
  | none => rw [hi] at hr; cases hr
  | some s' => exact .insert h hx hi

theorem pop_reach {key : Nat → Int} {s : St Nat} {live : List Nat} (h : Reach key s live) (x : Nat)
    (hr : (heapPop key s).2 = some x) : Reach key (heapPop key s).1 (live.filter (· ≠ x)) :=
  .pop h (by rw [← hr])

/-- Defect: floating takes `c / 2` as the parent while sinking takes `2c+1`, `2c+2` as the children.
Insert 2, 4, 7, 1, 0, pop, insert 3, 5, 6, then pop three times: the last pop returns 4 although 3 is in
the heap. -/
theorem heap_pop_not_min_defect :
    ∃ s live s', Reach idKey s live ∧ heapPop idKey s = (s', some 4) ∧ 3 ∈ live ∧ idKey 3 < idKey 4 := by
  have h := Reach.create (key := idKey) 16
  have h := ins_reach h 2 (by decide) (by decide +kernel)
  have h := ins_reach h 4 (by decide) (by decide +kernel)
  have h := ins_reach h 7 (by decide) (by decide +kernel)
  have h := ins_reach h 1 (by decide) (by decide +kernel)
  have h := ins_reach h 0 (by decide) (by decide +kernel)
  have h := pop_reach h 0 (by decide +kernel)
  have h := ins_reach h 3 (by decide) (by decide +kernel)
  have h := ins_reach h 5 (by decide) (by decide +kernel)
  have h := ins_reach h 6 (by decide) (by decide +kernel)
  have h := pop_reach h 1 (by decide +kernel)
  have h := pop_reach h 2 (by decide +kernel)
  refine ⟨_, _, _, h, Prod.ext rfl ?_, by decide, by decide⟩
  decide +kernel

/-- Defect: `ovis_heap_remove` of the last node of the array floats the node it is removing, and can put
it back: insert 0, 1, 2, 3, pop, remove node 2: the heap still holds 2 and has lost 3. -/
theorem heap_remove_wrong_node_defect :
    ∃ s live, Reach idKey s live ∧ 2 ∈ contents s ∧ 3 ∈ contents s ∧
      2 ∈ contents (heapRemove idKey s 2) ∧ 3 ∉ contents (heapRemove idKey s 2) := by
  have h := Reach.create (key := idKey) 16
  have h := ins_reach h 0 (by decide) (by decide +kernel)
  have h := ins_reach h 1 (by decide) (by decide +kernel)
  have h := ins_reach h 2 (by decide) (by decide +kernel)
  have h := ins_reach h 3 (by decide) (by decide +kernel)
  have h := pop_reach h 0 (by decide +kernel)
  exact ⟨_, _, h, by decide +kernel, by decide +kernel, by decide +kernel, by decide +kernel⟩

/-- a filled heap of five nodes -/
example : ∃ s, Filled idKey s [0, 1, 7, 4, 2] ∧ (heapPop idKey s).2 = some 0 := by
  have step : ∀ {s live} (x : Nat), Filled idKey s live → x ∉ live →
      (heapInsert idKey s x).isSome = true →
      Filled idKey ((heapInsert idKey s x).getD s) (x :: live) := by
    intro s live x h hx hr
    cases hi : heapInsert idKey s x with
    | none => rw [hi] at hr; cases hr
    | some s' => exact .insert h hx hi
  have h := Filled.create (key := idKey) 16
  have h := step 2 h (by decide) (by decide +kernel)
  have h := step 4 h (by decide) (by decide +kernel)
  have h := step 7 h (by decide) (by decide +kernel)
  have h := step 1 h (by decide) (by decide +kernel)
  have h := step 0 h (by decide) (by decide +kernel)
  exact ⟨_, h, by decide +kernel⟩

end Verif.OvisHeap
