import Verif.SetDel.Spec

/-! # Proofs: references are counted, and given back -/

namespace Verif.SetDel

def b (x : Bool) : Nat := if x then 1 else 0

/-- References a connection stands for. -/
def C.refs (c : C) : Nat := b c.found + b c.coll + b c.ctxSet + b (decide (c.ctx = some true)) + b c.lost

def total (l : List C) : Nat := (l.map C.refs).sum

theorem total_modify (f : C → C) : ∀ (l : List C) (i : Nat) (c : C), l[i]? = some c →
    total (l.modify i f) + c.refs = total l + (f c).refs
  | [], i, c, h => by simp at h
  | a :: l, 0, c, h => by
    have : a = c := by simpa using h
    subst this
    simp only [total, List.modify_zero_cons, List.map_cons, List.sum_cons]; omega
  | a :: l, i + 1, c, h => by
    have := total_modify f l i c (by simpa using h)
    simp only [total, List.modify_succ_cons, List.map_cons, List.sum_cons] at this ⊢; omega

theorem refs_le {l : List C} {i : Nat} {c : C} (h : l[i]? = some c) : c.refs ≤ total l := by
  have := List.mem_of_getElem? h
  clear h
  induction l with
  | nil => simp at this
  | cons a l ih =>
    simp only [total, List.map_cons, List.sum_cons]
    rcases List.mem_cons.1 this with e | h
    · subst e; omega
    · have := ih h; unfold total at this; omega

theorem total_zero {l : List C} (h : total l = 0) {c : C} (hc : c ∈ l) : c.refs = 0 := by
  obtain ⟨i, hi⟩ := List.getElem?_of_mem hc
  have := refs_le hi
  omega

theorem total_same (f : C → C) (hf : ∀ c, (f c).refs = c.refs) (l : List C) : total (l.map f) = total l := by
  unfold total
  rw [List.map_map]
  congr 1
  exact List.map_congr_left fun c _ => hf c

theorem total_append (l m : List C) : total (l ++ m) = total l + total m := by
  simp [total]

/-- What holds of a connection. -/
structure Ok (del : Option Nat) (ended freed : Bool) (c : C) : Prop where
  gone : c.net = .gone → c.coll = false ∧ c.ctx = none ∧ c.ctxSet = false ∧ c.found = false
  look : freed = false → c.coll = true ∨ c.ctx = some true → c.look = true
  looked : freed = false → c.net ≠ .gone → c.looked = true → c.look = true
  copy : c.copy = true → c.looked = true
  ctx : freed = false → (c.ctxSet = true ↔ c.ctx ≠ none)
  way : c.req = true ∨ c.rep = true → c.ctx ≠ none ∧ c.net = .up
  free : freed = true → c.found = false ∧ c.coll = false ∧ c.ctxSet = false ∧ (c.ctx ≠ none → c.net = .down) ∧
    (c.net = .up → c.looked = true → c.answered = true)
  tell : c.tell = true → del ≠ none ∧ ended = false ∧ c.due = false
  before : c.due = false → c.ctx = none ∧ c.told = 0 ∧ c.answered = false ∧ c.failed = false ∧ c.lost = false
  late : del = none → c.due = false
  wait : freed = false → c.net = .up → c.look = true → c.answered = false → c.coll = true ∨ c.ctx = some true ∨ c.lost = true
  once : c.told ≤ 1
  req : c.req = true → c.told = 0 ∧ c.answered = false
  due : c.due = true → c.net = .up → c.failed = true ∨ c.req = true ∨ c.answered = true
  rep : c.rep = true → c.answered = true
  lost : c.lost = true → c.ctx ≠ some true
  said : 0 < c.told → c.answered = true

structure Inv (w : W) : Prop where
  ok : ∀ c ∈ w.conns, Ok w.del w.ended w.freed c
  refs : w.freed = false → w.refs = b (!w.ended) + w.users + total w.conns
  free : w.freed = true → w.users = 0 ∧ w.ended = true
  ended : w.ended = true → w.del ≠ none
  pos : w.freed = false → w.refs ≠ 0

theorem mem_modify {f : C → C} {l : List C} {i : Nat} {c d : C} (hc : l[i]? = some c) (hd : d ∈ l.modify i f) :
    d = f c ∨ d ∈ l := by
  obtain ⟨j, hj⟩ := List.getElem?_of_mem hd
  rw [List.getElem?_modify] at hj
  by_cases e : i = j
  · subst e
    rw [hc] at hj
    simp at hj
    exact .inl hj.symm
  · simp only [if_neg e] at hj
    right
    cases h : l[j]? with
    | none => rw [h] at hj; exact nomatch hj
    | some a =>
      rw [h] at hj
      have : a = d := Option.some.inj hj
      exact this ▸ List.mem_of_getElem? h

theorem get_modify {f : C → C} {l : List C} {i : Nat} {c : C} (hc : l[i]? = some c) : (l.modify i f)[i]? = some (f c) := by
  rw [List.getElem?_modify, hc]; simp

theorem modify_modify (f g : C → C) (l : List C) (i : Nat) : (l.modify i f).modify i g = l.modify i (g ∘ f) := by
  apply List.ext_getElem?
  intro j
  simp only [List.getElem?_modify]
  cases l[j]? with
  | none => rfl
  | some a => by_cases e : i = j <;> simp [e]

/-- When the last reference goes, nothing is left that refers to the memory. -/
theorem ok_free {del : Option Nat} {ended : Bool} {c : C} (h : Ok del ended false c) (hr : c.refs = 0) : Ok del ended true c := by
  have h1 : c.found = false ∧ c.coll = false ∧ c.ctxSet = false ∧ c.lost = false := by
    unfold C.refs b at hr
    cases hf : c.found <;> cases hcl : c.coll <;> cases hcs : c.ctxSet <;> cases hl : c.lost <;> simp_all
  have h2 : c.ctx = none := by
    refine Classical.byContradiction fun hn => ?_
    have := (h.ctx rfl).2 hn
    rw [h1.2.2.1] at this; exact nomatch this
  obtain ⟨g1, g2, g3, g4, g5, g6, g7, g8, g9, g10, g11, g12, g13, g14, g15, g16, g17⟩ := h
  constructor <;> grind

/-- `w` with its count `n` too high, as before `n` puts. -/
structure Pre (w : W) (n : Nat) : Prop where
  ok : ∀ c ∈ w.conns, Ok w.del w.ended false c
  refs : w.refs = b (!w.ended) + w.users + total w.conns + n
  freed : w.freed = false
  ended : w.ended = true → w.del ≠ none

theorem put_pre {w : W} {n : Nat} (h : Pre w (n + 2)) : ∃ w', w.put = .ok w' ∧ Pre w' (n + 1) ∧ w' = { w with refs := w.refs - 1 } := by
  have hr := h.refs
  refine ⟨{ w with refs := w.refs - 1 }, ?_, ⟨h.ok, ?_, h.freed, h.ended⟩, rfl⟩
  · unfold W.put
    rw [if_neg (by rw [h.freed]; exact fun e => nomatch e)]
    congr 2
    rw [h.freed]
    exact decide_eq_false (by omega)
  · simp only; omega

theorem put_inv {w : W} (h : Pre w 1) : ∃ w', w.put = .ok w' ∧ Inv w' ∧ w'.conns = w.conns := by
  refine ⟨{ w with refs := w.refs - 1, freed := decide (w.refs - 1 = 0) }, ?_, ?_, rfl⟩
  · unfold W.put; rw [if_neg (by rw [h.freed]; exact fun e => nomatch e)]
  · have hr := h.refs
    by_cases hz : w.refs - 1 = 0
    · have ht : total w.conns = 0 := by omega
      have hu : w.users = 0 := by omega
      have he : w.ended = true := by
        cases he : w.ended with
        | true => rfl
        | false => rw [he] at hr; simp only [b, Bool.not_false, if_true] at hr; omega
      refine ⟨?_, ?_, fun _ => ⟨hu, he⟩, h.ended, fun e => by simp only [hz, decide_true] at e; exact nomatch e⟩
      · intro c hc
        simp only [hz, decide_true]
        exact ok_free (h.ok c hc) (total_zero ht hc)
      · intro e; simp only [hz, decide_true] at e; exact nomatch e
    · refine ⟨?_, ?_, ?_, h.ended, fun _ => hz⟩
      · intro c hc
        simp only [hz, decide_false]
        exact h.ok c hc
      · intro _; simp only; omega
      · intro e; simp only [hz, decide_false] at e; exact nomatch e

theorem put_mod (w : W) (i : Nat) (f : C → C) : (w.put.bind fun w => .ok (w.mod i f)) = (w.mod i f).put := by
  unfold W.put W.mod
  cases w.freed <;> rfl

theorem put1 {w : W} {i : Nat} {f : C → C} (h : Pre (w.mod i f) 1) :
    ∃ w', (w.put.bind fun w => .ok (w.mod i f)) = .ok w' ∧ Inv w' ∧ w'.conns = w.conns.modify i f := by
  rw [put_mod]; exact put_inv h

theorem put2 {w : W} {i : Nat} {f : C → C} (h : Pre (w.mod i f) 2) :
    ∃ w', (w.put.bind fun w => w.put.bind fun w => .ok (w.mod i f)) = .ok w' ∧ Inv w' ∧ w'.conns = w.conns.modify i f := by
  obtain ⟨w1, e1, p1, e2⟩ := put_pre h
  have : w.put = .ok { w with refs := w.refs - 1 } := by
    have h1 : w.freed = false := h.freed
    have h2 : w.refs = _ := h.refs
    unfold W.put
    rw [if_neg (by rw [h1]; exact fun e => nomatch e)]
    congr 2
    rw [h1]
    exact decide_eq_false (by omega)
  rw [this]
  show ∃ w', (W.put { w with refs := w.refs - 1 }).bind (fun w => .ok (w.mod i f)) = .ok w' ∧ _
  rw [put_mod]
  have : ({ w with refs := w.refs - 1 } : W).mod i f = w1 := by rw [e2]; rfl
  rw [this]
  obtain ⟨w', a, b, c⟩ := put_inv p1
  exact ⟨w', a, b, by rw [c, e2]; rfl⟩

theorem inv_local {w : W} (h : Inv w) {i : Nat} {c : C} (hc : w.conns[i]? = some c) (f : C → C)
    (hr : w.freed = false → (f c).refs = c.refs) (hok : Ok w.del w.ended w.freed (f c)) : Inv (w.mod i f) := by
  refine ⟨?_, ?_, h.free, h.ended, h.pos⟩
  · intro d hd
    rcases mem_modify hc hd with e | hd
    · subst e; exact hok
    · exact h.ok d hd
  · intro hf
    have h1 := h.refs hf
    have h2 := total_modify f w.conns i c hc
    have h3 := hr hf
    show w.refs = b (!w.ended) + w.users + total (w.conns.modify i f)
    omega

/-- A reference is taken, and stands in a connection. -/
theorem inv_get {w : W} (h : Inv w) (hf : w.freed = false) {i : Nat} {c : C} (hc : w.conns[i]? = some c) (f : C → C)
    (hr : (f c).refs = c.refs + 1) (hok : Ok w.del w.ended false (f c)) :
    ∃ w', (w.get.bind fun w => .ok (w.mod i f)) = .ok w' ∧ Inv w' ∧ w'.conns = w.conns.modify i f ∧ w'.freed = false ∧
      w'.del = w.del ∧ w'.ended = w.ended := by
  refine ⟨{ w with refs := w.refs + 1, conns := w.conns.modify i f }, ?_, ?_, rfl, hf, rfl, rfl⟩
  · unfold W.get
    rw [if_neg (by rw [hf]; exact fun e => nomatch e)]
    rfl
  · refine ⟨?_, ?_, ?_, h.ended, fun _ => Nat.succ_ne_zero _⟩
    · intro d hd
      rcases mem_modify hc hd with e | hd
      · subst e; simp only [hf]; exact hok
      · exact h.ok d hd
    · intro _
      have h1 := h.refs hf
      have h2 := total_modify f w.conns i c hc
      simp only
      omega
    · intro e; simp only [hf] at e; exact nomatch e

theorem ok_new (p : Nat) (del : Option Nat) (ended freed : Bool) : Ok del ended freed (C.new p) := by
  constructor <;> simp [C.new]

theorem not_freed_of {w : W} (h : Inv w) {c : C} (hc : c ∈ w.conns) (hr : c.found = true ∨ c.coll = true ∨ c.ctxSet = true) :
    w.freed = false := by
  cases hf : w.freed with
  | false => rfl
  | true =>
    have := (h.ok c hc).free hf
    rcases hr with e | e | e <;> simp_all

theorem not_freed_del {w : W} (h : Inv w) (hd : w.del = none) : w.freed = false := by
  cases hf : w.freed with
  | false => rfl
  | true => exact absurd hd (h.ended (h.free hf).2)

theorem enColl_mod {w : W} {i : Nat} {f : C → C} {c0 : C} (h0 : c0.coll = false) :
    enColl (w.mod i f) i c0 = w.get.bind fun w => .ok (w.mod i fun c => { f c with coll := true }) := by
  unfold enColl W.get
  rw [if_neg (by rw [h0]; exact fun e => nomatch e)]
  show Res.bind (if w.freed = true then _ else _) _ = _
  cases hf : w.freed with
  | true => rfl
  | false =>
    show Res.ok _ = Res.ok _
    congr 1
    unfold W.mod
    simp only [modify_modify, hf]
    rfl

theorem pre_mod {w : W} (h : Inv w) (hf : w.freed = false) {i : Nat} {c : C} (hc : w.conns[i]? = some c) (f : C → C) (n : Nat)
    (hr : c.refs = (f c).refs + n) (hok : Ok w.del w.ended false (f c)) : Pre (w.mod i f) n := by
  refine ⟨?_, ?_, hf, h.ended⟩
  · intro d hd
    rcases mem_modify hc hd with e | hd
    · subst e; exact hok
    · have := h.ok d hd; rw [hf] at this; exact this
  · have h1 := h.refs hf
    have h2 := total_modify f w.conns i c hc
    show w.refs = b (!w.ended) + w.users + total (w.conns.modify i f) + n
    omega

theorem inv_init : Inv init := by
  constructor
  · intro c hc; simp [init] at hc
  · intro _; rfl
  · intro h; exact nomatch h
  · intro h; exact nomatch h
  · intro _; exact Nat.one_ne_zero

theorem step_find {to : Nat} {w : W} (h : Inv w) (i : Nat) : ∃ w', step to w (.find i) = .ok w' ∧ Inv w' := by
  simp only [step]
  cases hc : w.conns[i]? with
  | none => exact ⟨_, rfl, h⟩
  | some c =>
    have ok := h.ok c (List.mem_of_getElem? hc)
    simp only
    split
    · rename_i hg
      have hf := not_freed_del h hg.2.2
      rw [hf] at ok
      obtain ⟨g1, g2, g3, g4, g5, g6, g7, g8, g9, g10, g11, g12, g13, g14, g15, g16, g17⟩ := ok
      obtain ⟨w', a, b, _⟩ := inv_get h hf hc (fun c => { c with found := true }) (by
        simp only [C.refs, hg.2.1, b, Bool.false_eq_true, if_false, if_true]; omega) (by constructor <;> grind)
      exact ⟨w', a, b⟩
    · exact ⟨_, rfl, h⟩

theorem step_enlist {to : Nat} {w : W} (h : Inv w) (i : Nat) : ∃ w', step to w (.enlist i) = .ok w' ∧ Inv w' := by
  simp only [step]
  cases hc : w.conns[i]? with
  | none => exact ⟨_, rfl, h⟩
  | some c =>
    have hm := List.mem_of_getElem? hc
    have ok := h.ok c hm
    simp only
    split
    · rename_i hfo
      have hf := not_freed_of h hm (.inl hfo)
      rw [hf] at ok
      split
      · rename_i hup
        have key : ∀ w1 : W, Inv w1 → w1.freed = false → ∀ c1 : C, w1.conns[i]? = some c1 →
            c1.found = true → c1.net = .up → c1.look = true →
            ∃ w', (w1.mod i fun c => { c with found := false, copy := true, looked := true }).put = .ok w' ∧ Inv w' := by
          intro w1 h1 hf1 c1 hc1 hfo1 hup1 hlk1
          have ok1 := h1.ok c1 (List.mem_of_getElem? hc1)
          rw [hf1] at ok1
          obtain ⟨g1, g2, g3, g4, g5, g6, g7, g8, g9, g10, g11, g12, g13, g14, g15, g16, g17⟩ := ok1
          obtain ⟨w', e1, e2, _⟩ := put_inv (pre_mod h1 hf1 hc1 (fun c => { c with found := false, copy := true, looked := true }) 1 (by
            simp only [C.refs, hfo1, b, Bool.false_eq_true, if_false, if_true]; omega) (by constructor <;> grind))
          exact ⟨w', e1, e2⟩
        cases hlk : c.look with
        | true =>
          simp only [if_true, Res.bind]
          exact key w h hf c hc hfo hup hlk
        | false =>
          simp only [Bool.false_eq_true, if_false]
          obtain ⟨g1, g2, g3, g4, g5, g6, g7, g8, g9, g10, g11, g12, g13, g14, g15, g16, g17⟩ := ok
          have hcl : c.coll = false := by grind
          rw [enColl_mod hcl]
          obtain ⟨w2, e1, h2, hc2, hf2, _⟩ := inv_get h hf hc (fun c => { c with look := true, coll := true }) (by
            simp only [C.refs, hcl, b, Bool.false_eq_true, if_false, if_true]; omega) (by constructor <;> grind)
          have e1 : (w.get.bind fun w => Res.ok (w.mod i fun c => { ({ c with look := true } : C) with coll := true })) = .ok w2 := e1
          rw [e1]
          have hc3 : w2.conns[i]? = some { c with look := true, coll := true } := by
            rw [hc2]; exact get_modify (f := fun c => { c with look := true, coll := true }) hc
          exact key w2 h2 hf2 _ hc3 hfo hup rfl
      · rename_i hup
        obtain ⟨g1, g2, g3, g4, g5, g6, g7, g8, g9, g10, g11, g12, g13, g14, g15, g16, g17⟩ := ok
        obtain ⟨w', e1, e2, _⟩ := put_inv (pre_mod h hf hc (fun c => { c with found := false }) 1 (by
          simp only [C.refs, hfo, b, Bool.false_eq_true, if_false, if_true]; omega) (by constructor <;> grind))
        exact ⟨w', e1, e2⟩
    · exact ⟨_, rfl, h⟩

theorem step_notify {to : Nat} {w : W} (h : Inv w) (i : Nat) : ∃ w', step to w (.notify i) = .ok w' ∧ Inv w' := by
  simp only [step]
  cases hc : w.conns[i]? with
  | none => exact ⟨_, rfl, h⟩
  | some c =>
    have ok := h.ok c (List.mem_of_getElem? hc)
    simp only
    split
    · rename_i hg
      have hf := not_freed_del h hg.2.1
      rw [hf] at ok
      obtain ⟨g1, g2, g3, g4, g5, g6, g7, g8, g9, g10, g11, g12, g13, g14, g15, g16, g17⟩ := ok
      have hcl : c.coll = false := by grind
      rw [enColl_mod hcl]
      obtain ⟨w2, e1, h2, _⟩ := inv_get h hf hc (fun c => { c with look := true, coll := true }) (by
        simp only [C.refs, hcl, b, Bool.false_eq_true, if_false, if_true]; omega) (by constructor <;> grind)
      exact ⟨w2, e1, h2⟩
    · exact ⟨_, rfl, h⟩

theorem step_regPush {to : Nat} {w : W} (h : Inv w) (i : Nat) : ∃ w', step to w (.regPush i) = .ok w' ∧ Inv w' := by
  simp only [step]
  cases hc : w.conns[i]? with
  | none => exact ⟨_, rfl, h⟩
  | some c =>
    have ok := h.ok c (List.mem_of_getElem? hc)
    simp only
    split
    · rename_i hg
      have hf := not_freed_del h hg.2.1
      cases hcl : c.coll with
      | true =>
        unfold enColl
        rw [hcl]
        refine ⟨_, rfl, inv_local h hc _ (fun _ => rfl) ?_⟩
        obtain ⟨g1, g2, g3, g4, g5, g6, g7, g8, g9, g10, g11, g12, g13, g14, g15, g16, g17⟩ := ok
        constructor <;> assumption
      | false =>
        rw [enColl_mod hcl]
        rw [hf] at ok
        obtain ⟨g1, g2, g3, g4, g5, g6, g7, g8, g9, g10, g11, g12, g13, g14, g15, g16, g17⟩ := ok
        obtain ⟨w2, e1, h2, _⟩ := inv_get h hf hc (fun c => { c with push := true, coll := true }) (by
          simp only [C.refs, hcl, b, Bool.false_eq_true, if_false, if_true]; omega) (by constructor <;> grind)
        exact ⟨w2, e1, h2⟩
    · exact ⟨_, rfl, h⟩

theorem step_tell {to : Nat} {w : W} (h : Inv w) (i : Nat) (sent : Bool) : ∃ w', step to w (.tell i sent) = .ok w' ∧ Inv w' := by
  simp only [step]
  cases hc : w.conns[i]? with
  | none => exact ⟨_, rfl, h⟩
  | some c =>
    have ok := h.ok c (List.mem_of_getElem? hc)
    simp only
    split
    · rename_i ht
      split
      · rename_i hg
        have hf : w.freed = false := by
          cases hf : w.freed with
          | false => rfl
          | true => have := (ok.tell ht).2.1; rw [(h.free hf).2] at this; exact nomatch this
        rw [hf] at ok
        obtain ⟨g1, g2, g3, g4, g5, g6, g7, g8, g9, g10, g11, g12, g13, g14, g15, g16, g17⟩ := ok
        have hb := g9 (g8 ht).2.2
        have hcs : c.ctxSet = false := by grind
        cases sent with
        | true =>
          simp only [if_true]
          obtain ⟨w2, e1, h2, _⟩ := inv_get h hf hc (fun c =>
              { c with tell := false, due := true, ctx := some c.coll, ctxSet := true, coll := false, req := true }) (by
            simp only [C.refs, b, hcs, hb.1]
            cases c.coll <;> simp <;> omega) (by constructor <;> grind)
          exact ⟨w2, e1, h2⟩
        | false =>
          have hget : w.get = .ok { w with refs := w.refs + 1 } := by
            unfold W.get
            rw [if_neg (by rw [hf]; exact fun e => nomatch e)]
          rw [hget]
          simp only [Res.bind, Bool.false_eq_true, if_false]
          have hp : Pre (({ w with refs := w.refs + 1 } : W).mod i fun c =>
              { c with tell := false, due := true, failed := true, coll := false, lost := c.lost || c.coll }) 1 := by
            have := pre_mod h hf hc (fun c => { c with tell := false, due := true, failed := true, coll := false, lost := c.lost || c.coll }) 0 (by
              simp only [C.refs, b, hb.2.2.2.2]
              cases c.coll <;> simp <;> omega) (by constructor <;> grind)
            exact ⟨this.ok, by have := this.refs; simp only [W.mod] at this ⊢; omega, this.freed, this.ended⟩
          obtain ⟨w', e1, e2, _⟩ := put_inv hp
          exact ⟨w', e1, e2⟩
      · refine ⟨_, rfl, inv_local h hc _ (fun _ => rfl) ?_⟩
        obtain ⟨g1, g2, g3, g4, g5, g6, g7, g8, g9, g10, g11, g12, g13, g14, g15, g16, g17⟩ := ok
        constructor <;> grind
    · exact ⟨_, rfl, h⟩

theorem step_recvRep {to : Nat} {w : W} (h : Inv w) (i : Nat) : ∃ w', step to w (.recvRep i) = .ok w' ∧ Inv w' := by
  simp only [step]
  cases hc : w.conns[i]? with
  | none => exact ⟨_, rfl, h⟩
  | some c =>
    have ok := h.ok c (List.mem_of_getElem? hc)
    simp only
    split
    · rename_i hg
      have hw := ok.way (.inr hg.1)
      have hf : w.freed = false := by
        cases hf : w.freed with
        | false => rfl
        | true => have := (ok.free hf).2.2.2.1 hw.1; rw [hg.2.1] at this; exact nomatch this
      rw [hf] at ok
      obtain ⟨g1, g2, g3, g4, g5, g6, g7, g8, g9, g10, g11, g12, g13, g14, g15, g16, g17⟩ := ok
      have hcs : c.ctxSet = true := (g5 rfl).2 hw.1
      cases hx : c.ctx with
      | none => exact absurd hx hw.1
      | some l =>
        cases l with
        | true =>
          simp only [hcs, if_true]
          obtain ⟨w', e1, e2, _⟩ := put2 (pre_mod h hf hc (fun c => { c with rep := false, ctx := none, ctxSet := false }) 2 (by
            simp only [C.refs, b, hcs, hx]; simp; omega) (by constructor <;> grind))
          exact ⟨w', e1, e2⟩
        | false =>
          simp only [hcs, if_true]
          obtain ⟨w', e1, e2, _⟩ := put1 (pre_mod h hf hc (fun c => { c with rep := false, ctx := none, ctxSet := false }) 1 (by
            simp only [C.refs, b, hcs, hx]; simp; omega) (by constructor <;> grind))
          exact ⟨w', e1, e2⟩
    · exact ⟨_, rfl, h⟩

theorem step_disc {to : Nat} {w : W} (h : Inv w) (i : Nat) : ∃ w', step to w (.disc i) = .ok w' ∧ Inv w' := by
  simp only [step]
  cases hc : w.conns[i]? with
  | none => exact ⟨_, rfl, h⟩
  | some c =>
    have hm := List.mem_of_getElem? hc
    have ok := h.ok c hm
    simp only
    split
    · rename_i hg
      have hd := hg.1
      have hnf := hg.2
      by_cases hany : c.coll = true ∨ c.ctxSet = true
      · have hf := not_freed_of h hm (.inr hany)
        have hn : ¬ w.freed = true := by rw [hf]; exact fun e => nomatch e
        rw [hf] at ok
        obtain ⟨g1, g2, g3, g4, g5, g6, g7, g8, g9, g10, g11, g12, g13, g14, g15, g16, g17⟩ := ok
        have hl : b (c.lost || decide (c.ctx = some true)) = b c.lost + b (decide (c.ctx = some true)) := by
          cases hl : c.lost with
          | false => simp [b]
          | true => have := g16 hl; simp [b, this]
        cases hcl : c.coll with
        | true =>
          simp only [if_true, if_neg hn]
          have hmm : ∀ g f : C → C, (w.mod i g).mod i f = w.mod i (f ∘ g) := fun g f => by
            unfold W.mod; simp only [modify_modify]
          cases hcs : c.ctxSet with
          | true =>
            simp only [if_true]
            obtain ⟨w', e1, e2, _⟩ := put2 (w := w.mod i fun c => { c with look := false, push := false, coll := false }) (i := i)
              (f := fun c => { c with net := .gone, dir := false, ctx := none, ctxSet := false, lost := c.lost || decide (c.ctx = some true) }) (by
              rw [hmm]
              refine pre_mod h hf hc _ 2 ?_ (by constructor <;> simp only [Function.comp] <;> grind)
              simp only [Function.comp, C.refs, hcl, hcs, hl, hnf]; simp [b]; omega)
            exact ⟨w', e1, e2⟩
          | false =>
            simp only [Bool.false_eq_true, if_false]
            obtain ⟨w', e1, e2, _⟩ := put1 (w := w.mod i fun c => { c with look := false, push := false, coll := false }) (i := i)
              (f := fun c => { c with net := .gone, dir := false, ctx := none, ctxSet := false, lost := c.lost || decide (c.ctx = some true) }) (by
              rw [hmm]
              refine pre_mod h hf hc _ 1 ?_ (by constructor <;> simp only [Function.comp] <;> grind)
              simp only [Function.comp, C.refs, hcl, hcs, hl, hnf]; simp [b]; omega)
            exact ⟨w', e1, e2⟩
        | false =>
          have hcs : c.ctxSet = true := by rcases hany with e | e; (rw [hcl] at e; exact nomatch e); exact e
          simp only [Bool.false_eq_true, if_false, hcs, if_true]
          obtain ⟨w', e1, e2, _⟩ := put1 (w := w) (i := i)
            (f := fun c => { c with net := .gone, dir := false, ctx := none, ctxSet := false, lost := c.lost || decide (c.ctx = some true) }) (by
            refine pre_mod h hf hc _ 1 ?_ (by constructor <;> grind)
            simp only [C.refs, hcl, hcs, hl, hnf]; simp [b]; omega)
          exact ⟨w', e1, e2⟩
      · have hcl : c.coll = false := by cases hh : c.coll <;> simp_all
        have hcs : c.ctxSet = false := by cases hh : c.ctxSet <;> simp_all
        simp only [hcl, hcs, Bool.false_eq_true, if_false, Res.bind]
        obtain ⟨g1, g2, g3, g4, g5, g6, g7, g8, g9, g10, g11, g12, g13, g14, g15, g16, g17⟩ := ok
        refine ⟨_, rfl, inv_local h hc _ (fun hf => ?_) (by constructor <;> grind)⟩
        have hx : c.ctx = none := by grind
        simp only [C.refs, hcl, hcs, hnf, hx]; simp
    · exact ⟨_, rfl, h⟩

theorem step_reap {to : Nat} {w : W} (h : Inv w) (hl : Due to w → Calm w) : ∃ w', step to w .reap = .ok w' ∧ Inv w' := by
  simp only [step]
  cases hd : w.del with
  | none => exact ⟨_, rfl, h⟩
  | some t =>
    simp only
    split
    · exact ⟨_, rfl, h⟩
    · rename_i hn
      have hf : w.freed = false := by cases hf : w.freed <;> simp_all
      have hc := hl ⟨t, hd, by omega, hf⟩
      unfold reapSet
      split
      · exact ⟨_, rfl, h⟩
      · rename_i hlook
        split
        · rename_i c hfind
          have hm := List.mem_of_find?_eq_some hfind
          have hp := List.find?_some hfind
          rw [if_pos ((hc.2.2 c hm).2.2.2 hp)]
          exact ⟨_, rfl, h⟩
        · refine ⟨_, rfl, ?_, (fun e => nomatch e), fun _ => ⟨hc.1, hc.2.1⟩, h.ended, (fun e => nomatch e)⟩
          intro d hd
          obtain ⟨c, hcm, e⟩ := List.mem_map.1 hd
          have ok := h.ok c hcm
          have cc := hc.2.2 c hcm
          have hnl : c.look = true → c.net ≠ .up := fun h1 h2 => hlook (List.any_eq_true.2 ⟨c, hcm, by simp [h1, h2]⟩)
          rw [hf] at ok
          obtain ⟨g1, g2, g3, g4, g5, g6, g7, g8, g9, g10, g11, g12, g13, g14, g15, g16, g17⟩ := ok
          have hnet : c.net = .up ∨ c.net = .down ∨ c.net = .gone := by cases c.net <;> simp
          have hctx : c.ctx = none ∨ c.ctx = some true ∨ c.ctx = some false := by
            cases c.ctx with
            | none => simp
            | some l => cases l <;> simp
          subst e
          simp only
          cases hlk : c.look with
          | true => simp only [if_true]; constructor <;> grind
          | false => simp only [Bool.false_eq_true, if_false]; constructor <;> grind

theorem inv_step {to : Nat} {w : W} (h : Inv w) (e : Ev) (hl : Legal to w e) : ∃ w', step to w e = .ok w' ∧ Inv w' := by
  cases e with
  | connect p =>
    refine ⟨_, rfl, ?_, ?_, h.free, h.ended, h.pos⟩
    · intro c hc
      rcases List.mem_append.1 hc with hc | hc
      · exact h.ok c hc
      · rw [List.mem_singleton.1 hc]; exact ok_new p _ _ _
    · intro hf
      have := h.refs hf
      simp only [total_append]
      have : total [C.new p] = 0 := rfl
      show w.refs = b (!w.ended) + w.users + (total w.conns + total [C.new p])
      omega
  | dir i on =>
    simp only [step]
    cases hc : w.conns[i]? with
    | none => exact ⟨_, rfl, h⟩
    | some c =>
      obtain ⟨g1, g2, g3, g4, g5, g6, g7, g8, g9, g10, g11, g12, g13, g14, g15, g16, g17⟩ := h.ok c (List.mem_of_getElem? hc)
      simp only
      split
      · exact ⟨_, rfl, inv_local h hc _ (fun _ => rfl) (by constructor <;> assumption)⟩
      · exact ⟨_, rfl, h⟩
  | find i => exact step_find h i
  | enlist i => exact step_enlist h i
  | notify i => exact step_notify h i
  | cancelNotify i =>
    simp only [step]
    cases hc : w.conns[i]? with
    | none => exact ⟨_, rfl, h⟩
    | some c =>
      have hlk : c.look = false := hl c hc
      obtain ⟨g1, g2, g3, g4, g5, g6, g7, g8, g9, g10, g11, g12, g13, g14, g15, g16, g17⟩ := h.ok c (List.mem_of_getElem? hc)
      simp only
      split
      · exact ⟨_, rfl, inv_local h hc _ (fun _ => rfl) (by constructor <;> grind)⟩
      · exact ⟨_, rfl, h⟩
  | regPush i => exact step_regPush h i
  | cancelPush i =>
    simp only [step]
    cases hc : w.conns[i]? with
    | none => exact ⟨_, rfl, h⟩
    | some c =>
      obtain ⟨g1, g2, g3, g4, g5, g6, g7, g8, g9, g10, g11, g12, g13, g14, g15, g16, g17⟩ := h.ok c (List.mem_of_getElem? hc)
      simp only
      split
      · exact ⟨_, rfl, inv_local h hc _ (fun _ => rfl) (by constructor <;> assumption)⟩
      · exact ⟨_, rfl, h⟩
  | userGet =>
    simp only [step]
    split
    · rename_i hd
      have hf := not_freed_del h hd
      unfold W.get
      rw [if_neg (by rw [hf]; exact fun e => nomatch e)]
      refine ⟨_, rfl, h.ok, ?_, ?_, h.ended, fun _ => Nat.succ_ne_zero _⟩
      · intro _; have := h.refs hf; simp only; omega
      · intro e; simp only [hf] at e; exact nomatch e
    · exact ⟨_, rfl, h⟩
  | userPut =>
    simp only [step]
    split
    · exact ⟨_, rfl, h⟩
    · rename_i hu
      have hf : w.freed = false := by
        cases hf : w.freed with
        | false => rfl
        | true => exact absurd (h.free hf).1 hu
      obtain ⟨w', e1, e2, _⟩ := put_inv (w := { w with users := w.users - 1 }) (by
        refine ⟨?_, ?_, hf, h.ended⟩
        · intro c hc; have := h.ok c hc; rw [hf] at this; exact this
        · have := h.refs hf; simp only; omega)
      exact ⟨w', e1, e2⟩
  | del =>
    simp only [step]
    split
    · rename_i hd
      have hf := not_freed_del h hd
      have he : w.ended = false := by
        cases he : w.ended with
        | false => rfl
        | true => exact absurd hd (h.ended he)
      refine ⟨_, rfl, ?_, ?_, h.free, fun _ => nofun, h.pos⟩
      · intro d hdm
        obtain ⟨c, hcm, e⟩ := List.mem_map.1 hdm
        obtain ⟨g1, g2, g3, g4, g5, g6, g7, g8, g9, g10, g11, g12, g13, g14, g15, g16, g17⟩ := h.ok c hcm
        subst e
        have := g10 hd
        constructor <;> grind
      · intro _
        have := h.refs hf
        simp only
        rw [total_same (fun c => { c with tell := true }) (fun c => rfl)]
        exact this
    · exact ⟨_, rfl, h⟩
  | tell i sent => exact step_tell h i sent
  | delEnd =>
    simp only [step]
    split
    · rename_i hg
      have hf : w.freed = false := by
        cases hf : w.freed with
        | false => rfl
        | true => have := (h.free hf).2; rw [hg.2.1] at this; exact nomatch this
      obtain ⟨w', e1, e2, _⟩ := put_inv (w := { w with ended := true }) (by
        refine ⟨?_, ?_, hf, fun _ => hg.1⟩
        · intro c hc
          have ht : c.tell = false := by
            have := List.all_eq_true.1 hg.2.2 c hc
            cases hh : c.tell <;> simp_all
          have := h.ok c hc
          rw [hf] at this
          obtain ⟨g1, g2, g3, g4, g5, g6, g7, g8, g9, g10, g11, g12, g13, g14, g15, g16, g17⟩ := this
          constructor <;> grind
        · have := h.refs hf; rw [hg.2.1] at this; simp only [b, Bool.not_true, Bool.not_false] at this ⊢; simp at this ⊢; omega)
      exact ⟨w', e1, e2⟩
    · exact ⟨_, rfl, h⟩
  | recvReq i =>
    simp only [step]
    cases hc : w.conns[i]? with
    | none => exact ⟨_, rfl, h⟩
    | some c =>
      obtain ⟨g1, g2, g3, g4, g5, g6, g7, g8, g9, g10, g11, g12, g13, g14, g15, g16, g17⟩ := h.ok c (List.mem_of_getElem? hc)
      simp only
      split
      · refine ⟨_, rfl, inv_local h hc _ (fun _ => rfl) (by constructor <;> grind)⟩
      · exact ⟨_, rfl, h⟩
  | peerDrop i =>
    simp only [step]
    cases hc : w.conns[i]? with
    | none =>
      refine ⟨_, rfl, ?_⟩
      have : w.conns.modify i (fun c => { c with copy := false }) = w.conns := by
        apply List.ext_getElem?
        intro j
        rw [List.getElem?_modify]
        by_cases e : i = j
        · subst e; rw [hc]; rfl
        · simp [e]
      unfold W.mod
      rw [this]
      exact h
    | some c =>
      obtain ⟨g1, g2, g3, g4, g5, g6, g7, g8, g9, g10, g11, g12, g13, g14, g15, g16, g17⟩ := h.ok c (List.mem_of_getElem? hc)
      exact ⟨_, rfl, inv_local h hc _ (fun _ => rfl) (by constructor <;> grind)⟩
  | recvRep i => exact step_recvRep h i
  | drop i =>
    simp only [step]
    cases hc : w.conns[i]? with
    | none => exact ⟨_, rfl, h⟩
    | some c =>
      obtain ⟨g1, g2, g3, g4, g5, g6, g7, g8, g9, g10, g11, g12, g13, g14, g15, g16, g17⟩ := h.ok c (List.mem_of_getElem? hc)
      simp only
      split
      · refine ⟨_, rfl, inv_local h hc _ (fun _ => rfl) (by constructor <;> grind)⟩
      · exact ⟨_, rfl, h⟩
  | disc i => exact step_disc h i
  | tick => exact ⟨_, rfl, h.ok, h.refs, h.free, h.ended, h.pos⟩
  | reap => exact step_reap h hl

theorem inv_run {to : Nat} {w : W} (h : Run to w) : Inv w := by
  induction h with
  | init => exact inv_init
  | step _ hl hs ih =>
    obtain ⟨w', e, hi⟩ := inv_step ih _ hl
    rw [hs] at e
    exact Res.ok.inj e ▸ hi

end Verif.SetDel
