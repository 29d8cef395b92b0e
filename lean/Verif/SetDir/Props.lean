import Verif.SetDir.Model

/-!
# C39: set names are unique, deleted sets disappear
-/

namespace Verif.SetDir

/-! ## specification -/

/-- what the program did with a set: its name, whether it was deleted, whether it is published, and how
many references from lookups are held -/
structure Rec where
  name : Str
  deleted : Bool
  pub : Bool
  held : Nat
  deriving DecidableEq, Repr

/-- the calls, with their results.  A creation has two parts; `newName` succeeds. -/
inductive Act where
  | begin (n : Str)
  | refused (n : Str)
  | refused2 (n : Str)
  | newName (n : Str) (addr id : Nat)
  | lookup (n : Str) (r : Option Nat)
  | put (i : Nat)
  | publish (i : Nat) (rc : Int)
  | unpublish (i : Nat) (rc : Int)
  | delete (i : Nat)
  | tick
  deriving DecidableEq, Repr

/-- a set of that name exists -/
def Exists (l : List Rec) (n : Str) : Prop := ∃ r ∈ l, r.name = n ∧ r.deleted = false

/-- the specification: what each call returns and does -/
inductive Spec : List Rec → Act → List Rec → Prop
  | begin {l n} : ¬ Exists l n → Spec l (.begin n) l
  | refused {l n} : Exists l n → Spec l (.refused n) l
  | refused2 {l n} : Exists l n → Spec l (.refused2 n) l
  | newName {l n a} : ¬ Exists l n → Spec l (.newName n a l.length) (l ++ [⟨n, false, false, 0⟩])
  | lookupNone {l n} : ¬ Exists l n → Spec l (.lookup n none) l
  | lookup {l : List Rec} {i : Nat} {r : Rec} : l[i]? = some r → r.deleted = false →
    Spec l (.lookup r.name (some i)) (l.set i { r with held := r.held + 1 })
  | put {l : List Rec} {i : Nat} {r : Rec} : l[i]? = some r → 0 < r.held →
    Spec l (.put i) (l.set i { r with held := r.held - 1 })
  | publish {l : List Rec} {i : Nat} {r : Rec} : l[i]? = some r → r.deleted = false ∨ 0 < r.held → r.pub = false →
    Spec l (.publish i 0) (l.set i { r with pub := true })
  | publishAgain {l : List Rec} {i : Nat} {r : Rec} : l[i]? = some r → r.deleted = false ∨ 0 < r.held → r.pub = true →
    Spec l (.publish i EEXIST) l
  | unpublish {l : List Rec} {i : Nat} {r : Rec} : l[i]? = some r → r.deleted = false ∨ 0 < r.held → r.pub = true →
    Spec l (.unpublish i 0) (l.set i { r with pub := false })
  | unpublishAgain {l : List Rec} {i : Nat} {r : Rec} : l[i]? = some r → r.deleted = false ∨ 0 < r.held →
    r.pub = false → Spec l (.unpublish i ENOENT) l
  | delete {l : List Rec} {i : Nat} {r : Rec} : l[i]? = some r → r.deleted = false →
    Spec l (.delete i) (l.set i { r with deleted := true })
  | tick {l} : Spec l .tick l

/-- the code -/
def Does (d : D) : Act → D → Prop
  | .begin n, d' => create1 d n = (d', none)
  | .refused n, d' => create1 d n = (d', some EEXIST)
  | .refused2 n, d' => n ∈ d.pend ∧ create2 d n 0 = (d', none)
  | .newName n a i, d' => n ∈ d.pend ∧ create2 d n a = (d', some i)
  | .lookup n r, d' => byName d n = some (d', r)
  | .put i, d' => put d i = some d'
  | .publish i rc, d' => publish d i = some (d', rc)
  | .unpublish i rc, d' => unpublish d i = some (d', rc)
  | .delete i, d' => delete d i = some d'
  | .tick, d' => d' = { d with now := d.now + 1 }

/-- a call that the program may make: it puts what it looked up, uses sets it created or looked up, and
deletes a set once -/
def Legal (l : List Rec) : Act → Prop
  | .put i => ∃ r, l[i]? = some r ∧ 0 < r.held
  | .publish i _ => ∃ r, l[i]? = some r ∧ (r.deleted = false ∨ 0 < r.held)
  | .unpublish i _ => ∃ r, l[i]? = some r ∧ (r.deleted = false ∨ 0 < r.held)
  | .delete i => ∃ r, l[i]? = some r ∧ r.deleted = false
  | _ => True

/-- runs of the code, with what the program did; the thread that frees deleted sets does not run -/
inductive Run : D → List Rec → Prop
  | init : Run D.init []
  | step {d d' : D} {l l' : List Rec} {a : Act} : Run d l → Legal l a → Does d a d' → Spec l a l' → Run d' l'

/-! ## the relation -/

/-- the state of one set agrees with what was done with it -/
structure Agrees (r : Rec) (s : SetS) : Prop where
  name : s.name = r.name
  pub : s.pub = r.pub
  tree : s.inTree = !r.deleted
  refs : s.refs = r.held + (if r.deleted then 0 else 1)
  freed : s.freed = true ↔ s.refs = 0
  del : s.delTime ≠ none ↔ r.deleted = true ∧ s.freed = false

structure Rel (d : D) (l : List Rec) : Prop where
  len : d.sets.length = l.length
  all : ∀ (i : Nat) r s, l[i]? = some r → d.sets[i]? = some s → Agrees r s
  uniq : ∀ (i j : Nat) r q, l[i]? = some r → l[j]? = some q → r.deleted = false → q.deleted = false →
    r.name = q.name → i = j

theorem Rel.get {d : D} {l : List Rec} (h : Rel d l) {i : Nat} {r : Rec} (hr : l[i]? = some r) :
    ∃ s, d.sets[i]? = some s ∧ Agrees r s := by
  have hlt : i < d.sets.length := by rw [h.len]; exact (List.getElem?_eq_some_iff.1 hr).1
  exact ⟨d.sets[i], List.getElem?_eq_getElem hlt, h.all i r _ hr (List.getElem?_eq_getElem hlt)⟩

theorem Rel.get' {d : D} {l : List Rec} (h : Rel d l) {i : Nat} {s : SetS} (hs : d.sets[i]? = some s) :
    ∃ r, l[i]? = some r ∧ Agrees r s := by
  have hlt : i < l.length := by rw [← h.len]; exact (List.getElem?_eq_some_iff.1 hs).1
  exact ⟨l[i], List.getElem?_eq_getElem hlt, h.all i _ s (List.getElem?_eq_getElem hlt) hs⟩

/-- the search finds exactly the set of that name that exists -/
theorem find_some {d : D} {l : List Rec} (h : Rel d l) {n : Str} {i : Nat} :
    find d n = some i ↔ ∃ r, l[i]? = some r ∧ r.deleted = false ∧ r.name = n := by
  constructor
  · intro hf
    unfold find at hf
    rw [List.findIdx?_eq_some_iff_getElem] at hf
    obtain ⟨hlt, hp, _⟩ := hf
    obtain ⟨r, hr, ha⟩ := h.get' (List.getElem?_eq_getElem hlt)
    simp only [Bool.and_eq_true, beq_iff_eq] at hp
    refine ⟨r, hr, ?_, ?_⟩
    · have := ha.tree; rw [hp.1] at this; simpa using this.symm
    · rw [← ha.name]; exact hp.2
  · rintro ⟨r, hr, hd, hn⟩
    obtain ⟨s, hs, ha⟩ := h.get hr
    unfold find
    rw [List.findIdx?_eq_some_iff_getElem]
    obtain ⟨hlt, he⟩ := List.getElem?_eq_some_iff.1 hs
    refine ⟨hlt, ?_, ?_⟩
    · rw [he, ha.tree, hd, ha.name, hn]; simp
    · intro j hj hp
      have hjl : j < d.sets.length := by omega
      obtain ⟨q, hq, hb⟩ := h.get' (List.getElem?_eq_getElem hjl)
      simp only [Bool.and_eq_true, beq_iff_eq] at hp
      have hqd : q.deleted = false := by
        have := hb.tree; rw [hp.1] at this; simpa using this.symm
      have hqn : q.name = n := by rw [← hb.name]; exact hp.2
      have := h.uniq i j r q hr hq hd hqd (by rw [hn, hqn])
      omega

theorem find_none {d : D} {l : List Rec} (h : Rel d l) {n : Str} : find d n = none ↔ ¬ Exists l n := by
  constructor
  · rintro hf ⟨r, hr, hn, hd⟩
    obtain ⟨i, hi, he⟩ := List.getElem_of_mem hr
    have := (find_some h (n := n) (i := i)).2 ⟨r, by rw [List.getElem?_eq_getElem hi, he], hd, hn⟩
    rw [hf] at this; cases this
  · intro hx
    cases hf : find d n with
    | none => rfl
    | some i =>
      obtain ⟨r, hr, hd, hn⟩ := (find_some h).1 hf
      exact absurd ⟨r, List.mem_of_getElem? hr, hn, hd⟩ hx

/-- a set that exists or is referenced may be used -/
theorem live_of {d : D} {i : Nat} {r : Rec} {s : SetS} (hs : d.sets[i]? = some s) (ha : Agrees r s)
    (hu : r.deleted = false ∨ 0 < r.held) : live d i = some s := by
  have : s.freed = false := by
    cases hf : s.freed with
    | false => rfl
    | true =>
      have h0 := ha.freed.1 hf
      have h1 := ha.refs
      rcases hu with hu | hu
      · rw [hu] at h1; simp at h1; omega
      · omega
  simp [live, hs, this]

theorem rel_set {d : D} {l : List Rec} (h : Rel d l) {i : Nat} {r r' : Rec} {s' : SetS} (hr : l[i]? = some r)
    (ha : Agrees r' s') (hn : r'.name = r.name) (hd : r'.deleted = false → r.deleted = false) :
    Rel (upd d i s') (l.set i r') := by
  refine ⟨by simp [upd, h.len], ?_, ?_⟩
  · intro j q t hq ht
    by_cases e : j = i
    · subst e
      have hlt : j < l.length := (List.getElem?_eq_some_iff.1 hr).1
      rw [List.getElem?_set_self hlt] at hq
      have hlt' : j < d.sets.length := by rw [h.len]; exact hlt
      have : (upd d j s').sets[j]? = some s' := List.getElem?_set_self hlt'
      rw [this] at ht
      cases hq; cases ht; exact ha
    · rw [List.getElem?_set_ne (Ne.symm e)] at hq
      have : (upd d i s').sets[j]? = d.sets[j]? := List.getElem?_set_ne (Ne.symm e)
      rw [this] at ht
      exact h.all j q t hq ht
  · have low : ∀ (j : Nat) q, (l.set i r')[j]? = some q → q.deleted = false →
        ∃ q0, l[j]? = some q0 ∧ q0.deleted = false ∧ q0.name = q.name := by
      intro j q hq hqd
      by_cases e : j = i
      · subst e
        have hlt : j < l.length := (List.getElem?_eq_some_iff.1 hr).1
        rw [List.getElem?_set_self hlt] at hq
        cases hq
        exact ⟨r, hr, hd hqd, hn.symm⟩
      · rw [List.getElem?_set_ne (Ne.symm e)] at hq
        exact ⟨q, hq, hqd, rfl⟩
    intro a b q p hq hp hqd hpd e
    obtain ⟨q0, x1, x2, x3⟩ := low a q hq hqd
    obtain ⟨p0, y1, y2, y3⟩ := low b p hp hpd
    exact h.uniq a b q0 p0 x1 y1 x2 y2 (by rw [x3, y3, e])

theorem put_rel {d : D} {l : List Rec} (h : Rel d l) {i : Nat} {r : Rec} (hr : l[i]? = some r) (hh : 0 < r.held) :
    ∃ d', put d i = some d' ∧ Rel d' (l.set i { r with held := r.held - 1 }) ∧ d'.pend = d.pend := by
  obtain ⟨s, hs, ha⟩ := h.get hr
  have hl := live_of hs ha (Or.inr hh)
  have hrefs := ha.refs
  have hnf : s.freed = false := by
    unfold live at hl; rw [hs] at hl; simp at hl; exact hl
  unfold put
  rw [hl, Option.map_some]
  by_cases h1 : s.refs = 1
  · refine ⟨_, rfl, ?_, ?_⟩
    · rw [if_pos h1]
      have hd : r.deleted = true := by
        cases hd : r.deleted with
        | true => rfl
        | false => rw [hd] at hrefs; simp at hrefs; omega
      refine rel_set h hr ?_ rfl (fun e => e)
      rw [hd] at hrefs
      refine ⟨ha.name, ha.pub, ha.tree, ?_, by simp, by simp⟩
      simp at hrefs ⊢
      rw [hd]; simp; omega
    · rw [if_pos h1]; rfl
  · refine ⟨_, rfl, ?_, ?_⟩
    · rw [if_neg h1]
      refine rel_set h hr ?_ rfl (fun e => e)
      refine ⟨ha.name, ha.pub, ha.tree, ?_, ?_, ?_⟩
      · show s.refs - 1 = r.held - 1 + _
        dsimp only
        omega
      · show s.freed = true ↔ s.refs - 1 = 0
        rw [hnf]
        simp
        omega
      · exact ha.del
    · rw [if_neg h1]; rfl

/-! ## the property -/

/-- every call of a run is answered as the specification says; nothing is used after it was given back -/
theorem step_spec {d : D} {l : List Rec} (h : Rel d l) {a : Act} (hl : Legal l a) :
    (∀ d', Does d a d' → ∃ l', Spec l a l' ∧ Rel d' l') := by
  intro d' hd
  cases a with
  | begin n =>
    simp only [Does, create1] at hd
    split at hd
    · cases hd
    · rename_i hf
      cases hd
      exact ⟨l, .begin ((find_none h).1 hf), h.len, h.all, h.uniq⟩
  | refused n =>
    simp only [Does, create1] at hd
    split at hd
    · rename_i i hf
      cases hd
      obtain ⟨r, hr, hdl, hn⟩ := (find_some h).1 hf
      exact ⟨l, .refused ⟨r, List.mem_of_getElem? hr, hn, hdl⟩, h⟩
    · cases hd
  | refused2 n =>
    simp only [Does, create2] at hd
    obtain ⟨_, hd⟩ := hd
    split at hd
    · rename_i i hf
      cases hd
      obtain ⟨r, hr, hdl, hn⟩ := (find_some h).1 hf
      exact ⟨l, .refused2 ⟨r, List.mem_of_getElem? hr, hn, hdl⟩, h.len, h.all, h.uniq⟩
    · cases hd
  | newName n ad i =>
    simp only [Does, create2] at hd
    obtain ⟨_, hd⟩ := hd
    split at hd
    · cases hd
    · rename_i hf
      have hx := (find_none h).1 hf
      cases hd
      refine ⟨_, by rw [h.len]; exact .newName hx, ?_, ?_, ?_⟩
      · simp [h.len]
      · intro i r s hr hs
        rw [List.getElem?_append] at hr hs
        rw [h.len] at hs
        split at hr
        · rename_i hlt
          rw [if_pos hlt] at hs
          exact h.all i r s hr hs
        · rename_i hlt
          rw [if_neg hlt] at hs
          cases hk : i - l.length with
          | zero =>
            rw [hk] at hr hs
            cases hr; cases hs
            exact ⟨rfl, rfl, rfl, rfl, by simp, by simp⟩
          | succ k => rw [hk] at hr; simp at hr
      · intro i j r q hr hq hrd hqd e
        rw [List.getElem?_append] at hr hq
        split at hr
        · split at hq
          · exact h.uniq i j r q hr hq hrd hqd e
          · rename_i hlt
            cases hk : j - l.length with
            | zero =>
              rw [hk] at hq
              cases hq
              exact absurd ⟨r, List.mem_of_getElem? hr, e, hrd⟩ hx
            | succ k => rw [hk] at hq; simp at hq
        · rename_i hlt
          split at hq
          · cases hk : i - l.length with
            | zero =>
              rw [hk] at hr
              cases hr
              exact absurd ⟨q, List.mem_of_getElem? hq, e.symm, hqd⟩ hx
            | succ k => rw [hk] at hr; simp at hr
          · rename_i hlt'
            cases hk : i - l.length with
            | zero =>
              cases hk' : j - l.length with
              | zero => omega
              | succ k => rw [hk'] at hq; simp at hq
            | succ k => rw [hk] at hr; simp at hr
  | lookup n r =>
    simp only [Does, byName] at hd
    split at hd
    · rename_i hf
      cases hd
      exact ⟨l, .lookupNone ((find_none h).1 hf), h⟩
    · rename_i i hf
      obtain ⟨q, hq, hdl, hn⟩ := (find_some h).1 hf
      obtain ⟨s, hs, ha⟩ := h.get hq
      rw [live_of hs ha (Or.inl hdl)] at hd
      simp only [Option.map_some, Option.some.injEq, Prod.mk.injEq] at hd
      obtain ⟨e1, e2⟩ := hd
      subst e1; subst e2; subst hn
      refine ⟨_, .lookup hq hdl, rel_set h hq ?_ rfl (fun e => e)⟩
      have h1 := ha.refs
      refine ⟨ha.name, ha.pub, ha.tree, ?_, ?_, ha.del⟩
      · show s.refs + 1 = q.held + 1 + _
        dsimp only
        omega
      · show s.freed = true ↔ s.refs + 1 = 0
        have := ha.freed
        constructor
        · intro e; have := this.1 e; rw [hdl] at h1; simp at h1; omega
        · intro e; omega
  | put i =>
    obtain ⟨r, hr, hh⟩ := hl
    obtain ⟨e, he, hrel, _⟩ := put_rel h hr hh
    simp only [Does] at hd
    rw [he] at hd
    cases hd
    exact ⟨_, .put hr hh, hrel⟩
  | publish i rc =>
    obtain ⟨r, hr, hu⟩ := hl
    obtain ⟨s, hs, ha⟩ := h.get hr
    simp only [Does, publish, live_of hs ha hu, Option.map_some, Option.some.injEq] at hd
    split at hd
    · rename_i hp
      cases hd
      exact ⟨l, .publishAgain hr hu (by rw [← ha.pub]; exact hp), h⟩
    · rename_i hp
      cases hd
      refine ⟨_, .publish hr hu (by rw [← ha.pub]; simpa using hp), rel_set h hr ?_ rfl (fun e => e)⟩
      exact ⟨ha.name, rfl, ha.tree, ha.refs, ha.freed, ha.del⟩
  | unpublish i rc =>
    obtain ⟨r, hr, hu⟩ := hl
    obtain ⟨s, hs, ha⟩ := h.get hr
    simp only [Does, unpublish, live_of hs ha hu, Option.map_some, Option.some.injEq] at hd
    split at hd
    · rename_i hp
      cases hd
      refine ⟨_, .unpublish hr hu (by rw [← ha.pub]; exact hp), rel_set h hr ?_ rfl (fun e => e)⟩
      exact ⟨ha.name, rfl, ha.tree, ha.refs, ha.freed, ha.del⟩
    · rename_i hp
      cases hd
      exact ⟨l, .unpublishAgain hr hu (by rw [← ha.pub]; simpa using hp), h⟩
  | delete i =>
    obtain ⟨r, hr, hdl⟩ := hl
    obtain ⟨s, hs, ha⟩ := h.get hr
    have hlv := live_of hs ha (Or.inl hdl)
    have hnf : s.freed = false := by
      have := hlv; unfold live at this; rw [hs] at this; simp at this; exact this
    have ht : s.inTree = true := by rw [ha.tree, hdl]; rfl
    have hlt : i < d.sets.length := (List.getElem?_eq_some_iff.1 hs).1
    have hrefs := ha.refs
    rw [hdl] at hrefs
    simp only [Bool.false_eq_true, if_false] at hrefs
    simp only [Does, delete, hlv, Option.bind_some, ht, if_true, put] at hd
    have hl2 : live (upd d i { s with inTree := false, delTime := some d.now }) i =
        some { s with inTree := false, delTime := some d.now } := by
      simp [live, upd, List.getElem?_set_self hlt, hnf]
    rw [hl2] at hd
    simp only [Option.map_some, Option.some.injEq] at hd
    refine ⟨_, .delete hr hdl, ?_⟩
    have hset : ∀ s1 s2, upd (upd d i s1) i s2 = upd d i s2 := by
      intro s1 s2; simp [upd]
    split at hd
    · rename_i h1
      rw [hset] at hd
      subst hd
      refine rel_set h hr ?_ rfl (fun e => by cases e)
      refine ⟨ha.name, ha.pub, rfl, ?_, by simp, by simp⟩
      show 0 = r.held + 0
      have : s.refs = 1 := h1
      omega
    · rename_i h1
      rw [hset] at hd
      subst hd
      refine rel_set h hr ?_ rfl (fun e => by cases e)
      have h1' : s.refs ≠ 1 := h1
      refine ⟨ha.name, ha.pub, rfl, ?_, ?_, ?_⟩
      · show s.refs - 1 = r.held + 0
        omega
      · show s.freed = true ↔ s.refs - 1 = 0
        rw [hnf]
        simp
        omega
      · simp [hnf]
  | tick =>
    simp only [Does] at hd
    subst hd
    exact ⟨l, .tick, h.len, h.all, h.uniq⟩

/-- the specification determines what is recorded -/
theorem spec_det {l l1 l2 : List Rec} {a : Act} (h1 : Spec l a l1) (h2 : Spec l a l2) : l1 = l2 := by
  cases a with
  | lookup n r =>
    have key : ∀ {l' : List Rec} {n r}, Spec l (.lookup n r) l' →
        (r = none ∧ l' = l) ∨ ∃ i q, r = some i ∧ l[i]? = some q ∧ l' = l.set i { q with held := q.held + 1 } := by
      intro l' n r h
      generalize ha : Act.lookup n r = a at h
      cases h <;> cases ha
      · exact Or.inl ⟨rfl, rfl⟩
      · exact Or.inr ⟨_, _, rfl, ‹_›, rfl⟩
    rcases key h1 with ⟨e1, e2⟩ | ⟨i, q, e1, e2, e3⟩ <;> rcases key h2 with ⟨f1, f2⟩ | ⟨j, p, f1, f2, f3⟩
    · rw [e2, f2]
    · rw [e1] at f1; cases f1
    · rw [e1] at f1; cases f1
    · rw [e1] at f1; cases f1
      rw [e2] at f2; cases f2
      rw [e3, f3]
  | _ => cases h1 <;> cases h2 <;> simp_all

theorem run_rel {d : D} {l : List Rec} (h : Run d l) : Rel d l := by
  induction h with
  | init => exact ⟨rfl, (fun i r s hr => by simp at hr), (fun i j r q hr => by simp at hr)⟩
  | step _ hl hd hs ih =>
    obtain ⟨l', hs', hr⟩ := step_spec ih hl _ hd
    rw [spec_det hs hs']
    exact hr

/-- **set_calls_partial** (C39): every call the program may make in a run – the two halves of a creation
interleaved with other calls as the schedule likes – succeeds or is refused exactly as the specification
says (`EEXIST` for a taken name or a second publish, `ENOENT` for an unpublish of a set that is not
published, the one set that exists under the name or nothing for a lookup).  Partial: the run must not
include the thread that frees deleted sets (`reference_freed_defect`). -/
theorem set_calls_partial {d d' : D} {l : List Rec} {a : Act} (h : Run d l) (hl : Legal l a) (hd : Does d a d') :
    ∃ l', Spec l a l' ∧ Run d' l' := by
  obtain ⟨l', hs, _⟩ := step_spec (run_rel h) hl d' hd
  exact ⟨l', hs, .step h hl hd hs⟩

/-- **set_refs_partial** (C39): a set that exists, or to which a reference is held, is never given back: a
call on it goes through.  Partial: as above. -/
theorem set_refs_partial {d : D} {l : List Rec} (h : Run d l) {i : Nat} {r : Rec} (hr : l[i]? = some r) :
    ((r.deleted = false ∨ 0 < r.held) → ∃ s, live d i = some s ∧ s.name = r.name) ∧
    (r.deleted = true → r.held = 0 → live d i = none) ∧
    (0 < r.held → ∃ d', put d i = some d') ∧
    (r.deleted = false → ∃ d', delete d i = some d') := by
  have hrel := run_rel h
  obtain ⟨s, hs, ha⟩ := hrel.get hr
  refine ⟨fun hu => ⟨s, live_of hs ha hu, ha.name⟩, ?_, ?_, ?_⟩
  · intro hd h0
    have : s.freed = true := by
      rw [ha.freed, ha.refs, hd, h0]; rfl
    simp [live, hs, this]
  · intro hh
    obtain ⟨d', h1, _⟩ := put_rel hrel hr hh
    exact ⟨d', h1⟩
  · intro hd
    have hlv := live_of hs ha (Or.inl hd)
    have hnf : s.freed = false := by
      have := hlv; unfold live at this; rw [hs] at this; simp at this; exact this
    have hlt : i < d.sets.length := (List.getElem?_eq_some_iff.1 hs).1
    have ht : s.inTree = true := by rw [ha.tree, hd]; rfl
    unfold delete
    rw [hlv, Option.bind_some, if_pos ht]
    simp [put, live, upd, List.getElem?_set_self hlt, hnf]

/-- what is listed for a request of the directory -/
theorem filter_map_agree {p : SetS → Bool} {q : Rec → Bool} :
    ∀ (ss : List SetS) (l : List Rec), ss.length = l.length →
      (∀ (i : Nat) r s, l[i]? = some r → ss[i]? = some s → p s = q r ∧ s.name = r.name) →
      (ss.filter p).map (·.name) = (l.filter q).map (·.name)
  | [], [], _, _ => rfl
  | [], _ :: _, h, _ => by simp at h
  | _ :: _, [], h, _ => by simp at h
  | s :: ss, r :: l, h, hp => by
    have h0 := hp 0 r s rfl rfl
    have ih := filter_map_agree ss l (by simpa using h) (fun i r' s' a b => hp (i + 1) r' s' a b)
    rw [List.filter_cons, List.filter_cons, h0.1]
    split
    · rw [List.map_cons, List.map_cons, ih, h0.2]
    · exact ih

/-- **dir_exact** (C39): the directory lists exactly the names of the sets that exist and are published,
each once -/
theorem dir_exact {d : D} {l : List Rec} (h : Run d l) :
    dir d = (l.filter fun r => !r.deleted && r.pub).map (·.name) ∧ (dir d).Nodup := by
  have hrel := run_rel h
  have e : dir d = (l.filter fun r => !r.deleted && r.pub).map (·.name) :=
    filter_map_agree _ _ hrel.len (fun i r s hr hs => by
      have ha := hrel.all i r s hr hs
      exact ⟨by rw [ha.tree, ha.pub], ha.name⟩)
  refine ⟨e, ?_⟩
  rw [e, List.Nodup, List.pairwise_map, List.pairwise_filter]
  rw [List.pairwise_iff_getElem]
  intro i j hi hj hij h1 h2 he
  simp only [Bool.and_eq_true, Bool.not_eq_true'] at h1 h2
  have := hrel.uniq i j l[i] l[j] (List.getElem?_eq_getElem hi) (List.getElem?_eq_getElem hj) h1.1 h2.1 he
  omega

/-- **names_unique** (C39): two sets that exist have different names, whatever creations race; a creation is
refused if and only if the name is taken -/
theorem names_unique {d : D} {l : List Rec} (h : Run d l) (n : Str) (addr : Nat) :
    (∀ (i j : Nat) r q, l[i]? = some r → l[j]? = some q → r.deleted = false → q.deleted = false →
      r.name = q.name → i = j) ∧
    ((create1 d n).2 = some EEXIST ↔ Exists l n) ∧ ((create2 d n addr).2 = none ↔ Exists l n) := by
  have hrel := run_rel h
  refine ⟨hrel.uniq, ?_, ?_⟩
  · unfold create1
    cases hf : find d n with
    | none => simp [(find_none hrel).1 hf]
    | some i =>
      have : ¬ ¬ Exists l n := fun hx => by rw [(find_none hrel).2 hx] at hf; cases hf
      simp [Classical.not_not.1 this]
  · unfold create2
    cases hf : find d n with
    | none => simp [(find_none hrel).1 hf]
    | some i =>
      have : ¬ ¬ Exists l n := fun hx => by rw [(find_none hrel).2 hx] at hf; cases hf
      simp [Classical.not_not.1 this]

/-- **deleted_gone** (C39): a deleted set is not found by name, not listed, its name may be used again, and
deleting it again stops the program -/
theorem deleted_gone {d : D} {l : List Rec} (h : Run d l) {i : Nat} {r : Rec} (hr : l[i]? = some r)
    (hd : r.deleted = true) :
    (∀ n, find d n ≠ some i) ∧ delete d i = none := by
  have hrel := run_rel h
  obtain ⟨s, hs, ha⟩ := hrel.get hr
  refine ⟨?_, ?_⟩
  · intro n hf
    obtain ⟨q, hq, hqd, _⟩ := (find_some hrel).1 hf
    rw [hr] at hq; cases hq
    rw [hd] at hqd; cases hqd
  · have ht : s.inTree = false := by rw [ha.tree, hd]; rfl
    unfold delete live
    rw [hs]
    simp only [Option.bind_some]
    split
    · rfl
    · rw [Option.bind_some, if_neg (by simp [ht])]

/-! ## the thread that frees deleted sets -/

theorem upd_self_ne (d : D) (i j : Nat) (s : SetS) (h : j ≠ i) : (upd d i s).sets[j]? = d.sets[j]? :=
  List.getElem?_set_ne (Ne.symm h)

/-- a round frees a set only if it was deleted at least the timeout ago -/
theorem reap_get (n : Nat) : ∀ (d : D) (a : Option Nat) (i : Nat) (s : SetS), d.sets[i]? = some s →
    (reap n d a).now = d.now ∧
    ((reap n d a).sets[i]? = some s ∨
      ((∃ t, s.delTime = some t ∧ timeout ≤ d.now - t) ∧
        (reap n d a).sets[i]? = some { s with freed := true, delTime := none })) := by
  induction n with
  | zero => intro d a i s hs; exact ⟨rfl, Or.inl hs⟩
  | succ n ih =>
    intro d a i s hs
    unfold reap
    split
    · exact ⟨rfl, Or.inl hs⟩
    · rename_i j hj
      split
      · exact ⟨rfl, Or.inl hs⟩
      · rename_i q hq
        split
        · exact ⟨rfl, Or.inl hs⟩
        · rename_i t ht
          split
          · exact ⟨rfl, Or.inl hs⟩
          · rename_i hto
            by_cases e : i = j
            · subst e
              rw [hs] at hq; cases hq
              have hlt : i < d.sets.length := (List.getElem?_eq_some_iff.1 hs).1
              have := ih (upd d i { s with freed := true, delTime := none }) (some s.addr) i _
                (List.getElem?_set_self hlt)
              refine ⟨this.1, Or.inr ⟨⟨t, ht, by omega⟩, ?_⟩⟩
              rcases this.2 with h | ⟨⟨t', h, _⟩, _⟩
              · exact h
              · cases h
            · exact ih (upd d j { q with freed := true, delTime := none }) (some q.addr) i s
                (by rw [upd_self_ne _ _ _ _ e]; exact hs)

/-- **reap_only_expired** (C39): the thread that frees deleted sets leaves a set that exists, and a set
deleted less than a minute ago, as they are -/
theorem reap_only_expired (d : D) (i : Nat) (s : SetS) (hs : d.sets[i]? = some s)
    (hy : ∀ t, s.delTime = some t → d.now - t < 60) : (reapAll d).sets[i]? = some s := by
  rcases (reap_get d.sets.length d none i s hs).2 with h | ⟨⟨t, ht, hto⟩, _⟩
  · exact h
  · have := hy t ht; simp only [timeout] at hto; omega

/-- a deleted set with an address below `a` -/
def Cand (d : D) (a : Option Nat) (i : Nat) : Prop :=
  ∃ s, d.sets[i]? = some s ∧ s.delTime.isSome ∧ (∀ b, a = some b → s.addr < b)

def addrOf (d : D) (i : Nat) : Nat := (d.sets[i]?.map (·.addr)).getD 0

theorem highest_fold (d : D) (a : Option Nat) (L : List Nat) : ∀ best : Option Nat, (∀ j, best = some j → Cand d a j) →
    ∀ r, L.foldl (pick d a) best = r →
    (∀ j, r = some j → Cand d a j ∧ (∀ k, best = some k → addrOf d k ≤ addrOf d j) ∧
      ∀ k ∈ L, Cand d a k → addrOf d k ≤ addrOf d j) ∧
    (r = none → best = none ∧ ∀ k ∈ L, ¬ Cand d a k) := by
  induction L with
  | nil =>
    intro best hb r hr
    simp only [List.foldl_nil] at hr
    subst hr
    exact ⟨fun j hj => ⟨hb j hj, (fun k hk => by rw [hk] at hj; cases hj; exact Nat.le_refl _), fun k hk => by cases hk⟩,
      fun h => ⟨h, fun k hk => by cases hk⟩⟩
  | cons i L ih =>
    intro best hb r hr
    simp only [List.foldl_cons, pick] at hr
    cases hs : d.sets[i]? with
    | none =>
      simp only [hs] at hr
      obtain ⟨h1, h2⟩ := ih best hb r hr
      have hi : ¬ Cand d a i := fun ⟨s, h, _⟩ => by rw [hs] at h; cases h
      refine ⟨fun j hj => ⟨(h1 j hj).1, (h1 j hj).2.1, fun k hk hc => ?_⟩, fun h => ⟨(h2 h).1, fun k hk => ?_⟩⟩
      · rcases List.mem_cons.1 hk with rfl | hk
        · exact absurd hc hi
        · exact (h1 j hj).2.2 k hk hc
      · rcases List.mem_cons.1 hk with rfl | hk
        · exact hi
        · exact (h2 h).2 k hk
    | some s =>
      simp only [hs] at hr
      by_cases hg : s.delTime.isSome ∧ (∀ b, a = some b → s.addr < b)
      · rw [if_pos hg] at hr
        have hci : Cand d a i := ⟨s, hs, hg⟩
        have hai : addrOf d i = s.addr := by simp [addrOf, hs]
        cases best with
        | none =>
          simp only at hr
          obtain ⟨h1, h2⟩ := ih (some i) (fun j hj => by cases hj; exact hci) r hr
          refine ⟨fun j hj => ⟨(h1 j hj).1, (fun k hk => by cases hk), fun k hk hc => ?_⟩, fun h => ?_⟩
          · rcases List.mem_cons.1 hk with rfl | hk
            · exact (h1 j hj).2.1 _ rfl
            · exact (h1 j hj).2.2 k hk hc
          · exact absurd (h2 h).1 (by simp)
        | some q =>
          simp only at hr
          by_cases hlt : (d.sets[q]?.map (·.addr)).getD 0 < s.addr
          · rw [if_pos hlt] at hr
            obtain ⟨h1, h2⟩ := ih (some i) (fun j hj => by cases hj; exact hci) r hr
            refine ⟨fun j hj => ⟨(h1 j hj).1, fun k hk => ?_, fun k hk hc => ?_⟩, fun h => ?_⟩
            · cases hk
              have h3 := (h1 j hj).2.1 i rfl
              have h4 : addrOf d q < s.addr := hlt
              omega
            · rcases List.mem_cons.1 hk with rfl | hk
              · exact (h1 j hj).2.1 _ rfl
              · exact (h1 j hj).2.2 k hk hc
            · exact absurd (h2 h).1 (by simp)
          · rw [if_neg hlt] at hr
            obtain ⟨h1, h2⟩ := ih (some q) hb r hr
            refine ⟨fun j hj => ⟨(h1 j hj).1, (fun k hk => by cases hk; exact (h1 j hj).2.1 _ rfl), fun k hk hc => ?_⟩, fun h => ?_⟩
            · rcases List.mem_cons.1 hk with rfl | hk
              · have h3 := (h1 j hj).2.1 q rfl
                have h4 : ¬ addrOf d q < s.addr := hlt
                omega
              · exact (h1 j hj).2.2 k hk hc
            · exact absurd (h2 h).1 (by simp)
      · rw [if_neg hg] at hr
        obtain ⟨h1, h2⟩ := ih best hb r hr
        have hi : ¬ Cand d a i := fun ⟨s', h, h'⟩ => by rw [hs] at h; cases h; exact hg h'
        refine ⟨fun j hj => ⟨(h1 j hj).1, (h1 j hj).2.1, fun k hk hc => ?_⟩, fun h => ⟨(h2 h).1, fun k hk => ?_⟩⟩
        · rcases List.mem_cons.1 hk with rfl | hk
          · exact absurd hc hi
          · exact (h1 j hj).2.2 k hk hc
        · rcases List.mem_cons.1 hk with rfl | hk
          · exact hi
          · exact (h2 h).2 k hk

theorem cand_lt {d : D} {a : Option Nat} {k : Nat} (h : Cand d a k) : k ∈ List.range d.sets.length := by
  obtain ⟨s, hs, _⟩ := h
  exact List.mem_range.2 (List.getElem?_eq_some_iff.1 hs).1

theorem highest_some {d : D} {a : Option Nat} {j : Nat} (h : highest d a = some j) :
    Cand d a j ∧ ∀ k, Cand d a k → addrOf d k ≤ addrOf d j := by
  have := (highest_fold d a (List.range d.sets.length) none (fun j hj => by cases hj) _ h).1 j rfl
  exact ⟨this.1, fun k hk => this.2.2 k (cand_lt hk) hk⟩

theorem highest_none {d : D} {a : Option Nat} (h : highest d a = none) : ∀ k, ¬ Cand d a k := by
  have := (highest_fold d a (List.range d.sets.length) none (fun j hj => by cases hj) _ h).2 rfl
  exact fun k hk => this.2 k (cand_lt hk) hk

/-- the number of deleted sets -/
def ndel (d : D) : Nat := d.sets.countP fun s => s.delTime.isSome

theorem ndel_upd {d : D} {i : Nat} {s : SetS} (hs : d.sets[i]? = some s) (hd : s.delTime.isSome) (f : Bool) :
    ndel (upd d i { s with freed := f, delTime := none }) + 1 = ndel d := by
  obtain ⟨hlt, he⟩ := List.getElem?_eq_some_iff.1 hs
  simp only [ndel, upd]
  rw [List.countP_set hlt, he]
  simp only [hd, if_true, Option.isSome_none, Bool.false_eq_true, if_false]
  have : 0 < d.sets.countP fun s => s.delTime.isSome :=
    List.countP_pos_iff.2 ⟨s, he ▸ List.getElem_mem hlt, hd⟩
  omega

theorem reap_frees (n : Nat) : ∀ (d : D) (a : Option Nat), ndel d ≤ n →
    (∀ (i : Nat) (s : SetS) (t : Nat), d.sets[i]? = some s → s.delTime = some t → 60 ≤ d.now - t) →
    (∀ (i : Nat) (s : SetS), d.sets[i]? = some s → s.delTime.isSome → ∀ b, a = some b → s.addr < b) →
    (∀ (i j : Nat) (s q : SetS), d.sets[i]? = some s → d.sets[j]? = some q → s.delTime.isSome → q.delTime.isSome →
      s.addr = q.addr → i = j) →
    ∀ (i : Nat) (s : SetS), (reap n d a).sets[i]? = some s → s.delTime = none := by
  induction n with
  | zero =>
    intro d a hn _ _ _ i s hs
    simp only [reap] at hs
    have h0 : ndel d = 0 := by omega
    simp only [ndel, List.countP_eq_zero] at h0
    have := h0 s (List.mem_of_getElem? hs)
    simpa using this
  | succ n ih =>
    intro d a hn he hb hu i s hs
    unfold reap at hs
    cases hh : highest d a with
    | none =>
      rw [hh] at hs
      have := highest_none hh i
      cases hd : s.delTime with
      | none => rfl
      | some t => exact absurd ⟨s, hs, by simp [hd], fun b hb' => hb i s hs (by simp [hd]) b hb'⟩ this
    | some j =>
      obtain ⟨⟨q, hq, hqd, hqa⟩, hmax⟩ := highest_some hh
      obtain ⟨t, ht⟩ := Option.isSome_iff_exists.1 hqd
      have hto : ¬ d.now - t < timeout := by
        have := he j q t hq ht
        simp only [timeout]; omega
      simp only [hh, hq, ht, if_neg hto] at hs
      have hjl : j < d.sets.length := (List.getElem?_eq_some_iff.1 hq).1
      have get : ∀ (k : Nat) (x : SetS), (upd d j { q with freed := true, delTime := none }).sets[k]? = some x →
          (k = j ∧ x.delTime = none) ∨ (k ≠ j ∧ d.sets[k]? = some x) := by
        intro k x hx
        by_cases e : k = j
        · subst e
          simp only [upd, List.getElem?_set_self hjl, Option.some.injEq] at hx
          exact Or.inl ⟨rfl, by rw [← hx]⟩
        · rw [upd_self_ne _ _ _ _ e] at hx
          exact Or.inr ⟨e, hx⟩
      refine ih (upd d j { q with freed := true, delTime := none }) (some q.addr) ?_ ?_ ?_ ?_ i s hs
      · have := ndel_upd hq hqd true; omega
      · intro k x t' hx ht'
        rcases get k x hx with ⟨_, h⟩ | ⟨_, h⟩
        · rw [h] at ht'; cases ht'
        · exact he k x t' h ht'
      · intro k x hx hxd b hb'
        cases hb'
        rcases get k x hx with ⟨_, h⟩ | ⟨hne, h⟩
        · rw [h] at hxd; cases hxd
        · have h1 := hmax k ⟨x, h, hxd, fun b hb' => hb k x h hxd b hb'⟩
          have e1 : addrOf d k = x.addr := by simp [addrOf, h]
          have e2 : addrOf d j = q.addr := by simp [addrOf, hq]
          have : x.addr ≠ q.addr := fun e => hne (hu k j x q h hq hxd hqd e)
          omega
      · intro k m x y hx hy hxd hyd hxy
        rcases get k x hx with ⟨_, h⟩ | ⟨hk, h⟩
        · rw [h] at hxd; cases hxd
        · rcases get m y hy with ⟨_, h'⟩ | ⟨hm, h'⟩
          · rw [h'] at hyd; cases hyd
          · exact hu k m x y h h' hxd hyd hxy

/-- **reap_all_expired_partial** (C39): when every deleted set was deleted a minute ago or more, one round
of the thread leaves none of them behind.  (Sets that are not yet freed are at different addresses.)
Missing: the case where some deleted set is younger, where the statement is false, see
`expired_hidden_defect`. -/
theorem reap_all_expired_partial (d : D)
    (he : ∀ (i : Nat) (s : SetS) (t : Nat), d.sets[i]? = some s → s.delTime = some t → 60 ≤ d.now - t)
    (hu : ∀ (i j : Nat) (s q : SetS), d.sets[i]? = some s → d.sets[j]? = some q → s.delTime.isSome → q.delTime.isSome →
      s.addr = q.addr → i = j) (i : Nat) (s : SetS) (hs : (reapAll d).sets[i]? = some s) : s.delTime = none :=
  reap_frees d.sets.length d none (List.countP_le_length) he (fun _ _ _ _ b hb => by cases hb) hu i s hs

example : let d : D := ⟨[⟨[65], false, 1, false, some 3, 100, false⟩, ⟨[66], true, 1, true, none, 300, false⟩,
    ⟨[67], true, 2, false, some 9, 200, false⟩], [], 70⟩
    (∀ (i : Nat) (s : SetS) (t : Nat), d.sets[i]? = some s → s.delTime = some t → 60 ≤ d.now - t) ∧
    (reapAll d).sets.map (·.freed) = [true, false, true] := by
  refine ⟨?_, by decide⟩
  intro i s t h ht
  rcases i with _ | _ | _ | i <;> simp at h <;> subst h <;> simp at ht <;> subst ht <;> decide

/-- **reap_returned** (C39): in a run where the references to every set deleted a minute ago or more have
been returned, the thread changes nothing -/
theorem reap_returned {d : D} {l : List Rec} (h : Run d l)
    (hret : ∀ (i : Nat) s r t, d.sets[i]? = some s → l[i]? = some r → s.delTime = some t →
      timeout ≤ d.now - t → r.held = 0) (i : Nat) (s : SetS) (hs : d.sets[i]? = some s) :
    (reapAll d).sets[i]? = some s := by
  obtain ⟨r, hr, ha⟩ := (run_rel h).get' hs
  refine reap_only_expired d i s hs (fun t ht => ?_)
  by_cases hto : d.now - t < timeout
  · exact hto
  · have h0 := hret i s r t hs hr ht (by omega)
    have hd := ha.del.1 (by rw [ht]; exact fun e => by cases e)
    have : s.freed = true := ha.freed.2 (by rw [ha.refs, hd.1, h0]; rfl)
    rw [hd.2] at this; cases this

/-! ## a concrete run -/

/-- the calls that a run makes -/
def step (d : D) : Act → Option D
  | .begin n => some (create1 d n).1
  | .refused n => some (create1 d n).1
  | .refused2 n => some (create2 d n 0).1
  | .newName n a _ => some (create2 d n a).1
  | .lookup n _ => (byName d n).map (·.1)
  | .put i => put d i
  | .publish i _ => (publish d i).map (·.1)
  | .unpublish i _ => (unpublish d i).map (·.1)
  | .delete i => delete d i
  | .tick => some { d with now := d.now + 1 }

def A : Str := [97]

/-- two programs create `a` at the same time; one wins; it publishes; the set is looked up, deleted, and a
new `a` is created while the reference is held -/
def d5 : D := ⟨[⟨A, true, 1, false, some 0, 100, false⟩, ⟨A, false, 1, true, none, 50, false⟩], [], 0⟩

theorem run5 : Run d5 [⟨A, true, true, 1⟩, ⟨A, false, false, 0⟩] := by
  have r0 := Run.init
  have r1 := Run.step (a := .begin A) r0 trivial (d' := ⟨[], [A], 0⟩) rfl (.begin (by rintro ⟨r, hr, _⟩; simp at hr))
  have r2 := Run.step (a := .begin A) r1 trivial (d' := ⟨[], [A, A], 0⟩) rfl (.begin (by rintro ⟨r, hr, _⟩; simp at hr))
  have r3 := Run.step (a := .newName A 100 0) r2 trivial
    (d' := ⟨[⟨A, false, 1, true, none, 100, false⟩], [A], 0⟩) ⟨by simp, rfl⟩
    (.newName (by rintro ⟨r, hr, _⟩; simp at hr))
  have r4 := Run.step (a := .refused2 A) r3 trivial
    (d' := ⟨[⟨A, false, 1, true, none, 100, false⟩], [], 0⟩) ⟨by simp, rfl⟩
    (.refused2 ⟨_, List.mem_cons_self, rfl, rfl⟩)
  have r5 := Run.step (a := .publish 0 0) r4 ⟨_, rfl, Or.inl rfl⟩
    (d' := ⟨[⟨A, true, 1, true, none, 100, false⟩], [], 0⟩) rfl (.publish (i := 0) rfl (Or.inl rfl) rfl)
  have r6 := Run.step (a := .lookup A (some 0)) r5 trivial
    (d' := ⟨[⟨A, true, 2, true, none, 100, false⟩], [], 0⟩) rfl (.lookup (i := 0) (r := ⟨A, false, true, 0⟩) rfl rfl)
  have r7 := Run.step (a := .delete 0) r6 ⟨_, rfl, rfl⟩
    (d' := ⟨[⟨A, true, 1, false, some 0, 100, false⟩], [], 0⟩) rfl (.delete (i := 0) rfl rfl)
  have r8 := Run.step (a := .begin A) r7 trivial
    (d' := ⟨[⟨A, true, 1, false, some 0, 100, false⟩], [A], 0⟩) rfl
    (.begin (by rintro ⟨r, hr, _, hd⟩; simp at hr; subst hr; simp at hd))
  exact Run.step (a := .newName A 50 1) r8 trivial ⟨by simp, rfl⟩
    (.newName (by rintro ⟨r, hr, _, hd⟩; simp at hr; subst hr; simp at hd))

example : (reapAll { d5 with now := 59 }).sets = d5.sets := by decide

example : dir d5 = [] ∧ find d5 A = some 1 := by decide

/-! ## where the code does not keep it -/

/-- **reference_freed_defect** (C39): a minute after the deletion the thread that frees deleted sets frees
the set although a reference to it is held; the next use, or the return of the reference, is a use of
freed memory (`ldms.c:899-901` announces it, `3814-3816`, `3935` does it) -/
theorem reference_freed_defect :
    Run d5 [⟨A, true, true, 1⟩, ⟨A, false, false, 0⟩] ∧
    live (reapAll { d5 with now := 60 }) 0 = none ∧ put (reapAll { d5 with now := 60 }) 0 = none :=
  ⟨run5, by decide, by decide⟩

/-- **expired_hidden_defect** (C39): the thread goes through the deleted sets from the highest address down
and stops at the first one that is too young, so a set deleted long ago is not freed while a younger one
lies above it (`ldms.c:910-913`, `3804-3816`; the comment says oldest first).  The set at 50 was deleted a thousand seconds ago. -/
theorem expired_hidden_defect :
    let d : D := ⟨[⟨A, true, 1, false, some 0, 50, false⟩, ⟨A, true, 1, false, some 990, 100, false⟩], [], 1000⟩
    reapAll d = d := by decide

/-- **publish_deleted_defect** (C39): publishing a deleted set through a reference succeeds, although the
set never appears in a directory (`ldms.c:627-637`) -/
theorem publish_deleted_defect :
    ∃ d', publish ⟨[⟨A, false, 1, false, some 0, 100, false⟩], [], 0⟩ 0 = some (d', 0) ∧ dir d' = [] :=
  ⟨⟨[⟨A, true, 1, false, some 0, 100, false⟩], [], 0⟩, by decide, by decide⟩

end Verif.SetDir
