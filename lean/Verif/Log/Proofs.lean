import Verif.Log.Spec

/-! # Proofs: the queue and the thread do the same as writing at once -/

namespace Verif.Log

/-! ## The table of subsystems -/

def Ids (l : List Sub) : Prop := (l.map (·.id)).Nodup
def Nms (l : List Sub) : Prop := (l.map (·.name)).Nodup

def look (l : List Sub) (i : Nat) : Option Sub := l.find? fun s => s.id = i

theorem look_cons (x : Sub) (l : List Sub) (i : Nat) : look (x :: l) i = if x.id = i then some x else look l i := by
  unfold look
  rw [List.find?_cons]
  by_cases h : x.id = i <;> simp [h]

theorem look_some {l : List Sub} {i : Nat} {x : Sub} (h : look l i = some x) : x ∈ l ∧ x.id = i := by
  refine ⟨List.mem_of_find?_eq_some h, ?_⟩
  have := List.find?_some h
  simpa using this

theorem look_none {l : List Sub} {i : Nat} : look l i = none ↔ ∀ x ∈ l, x.id ≠ i := by
  unfold look
  rw [List.find?_eq_none]
  simp

theorem look_mem {l : List Sub} (h : Ids l) {x : Sub} (hx : x ∈ l) : look l x.id = some x := by
  induction l with
  | nil => simp at hx
  | cons y l ih =>
    rw [look_cons]
    have h' := List.nodup_cons.1 (show (y.id :: l.map (·.id)).Nodup from h)
    rcases List.mem_cons.1 hx with rfl | hx
    · rw [if_pos rfl]
    · rw [if_neg]
      · exact ih h'.2 hx
      · intro e
        exact h'.1 (by rw [e]; exact List.mem_map.2 ⟨x, hx, rfl⟩)

theorem look_map (f : Sub → Sub) (hf : ∀ s, (f s).id = s.id) (l : List Sub) (i : Nat) :
    look (l.map f) i = (look l i).map f := by
  induction l with
  | nil => rfl
  | cons y l ih =>
    rw [List.map_cons, look_cons, look_cons, hf, ih]
    split <;> rfl

theorem map_ids (f : Sub → Sub) (hf : ∀ s, (f s).id = s.id) (l : List Sub) : (l.map f).map (·.id) = l.map (·.id) := by
  rw [List.map_map]; exact List.map_congr_left fun s _ => hf s

theorem map_nms (f : Sub → Sub) (hf : ∀ s, (f s).name = s.name) (l : List Sub) : (l.map f).map (·.name) = l.map (·.name) := by
  rw [List.map_map]; exact List.map_congr_left fun s _ => hf s

theorem look_filter {l : List Sub} (h : Ids l) (p : Sub → Bool) (i : Nat) :
    look (l.filter p) i = (look l i).filter p := by
  induction l with
  | nil => rfl
  | cons y l ih =>
    have h' := List.nodup_cons.1 (show (y.id :: l.map (·.id)).Nodup from h)
    rw [List.filter_cons, look_cons]
    by_cases hp : p y = true
    · rw [if_pos hp, look_cons]
      split
      · simp [Option.filter, hp]
      · exact ih h'.2
    · rw [if_neg hp, ih h'.2]
      by_cases e : y.id = i
      · rw [if_pos e]
        have : look l i = none := by
          rw [look_none]
          intro x hx he
          exact h'.1 (by rw [e, ← he]; exact List.mem_map.2 ⟨x, hx, rfl⟩)
        rw [this]
        simp [Option.filter, hp]
      · rw [if_neg e]

theorem look_setSub (l : List Sub) (i : Nat) (f : Sub → Sub) (hf : ∀ s, (f s).id = s.id) (j : Nat) :
    look (setSub l i f) j = (look l j).map fun s => if j = i then f s else s := by
  unfold setSub
  rw [look_map _ (by intro s; split; exact hf s; rfl)]
  cases h : look l j with
  | none => rfl
  | some s =>
    have := (look_some h).2
    simp only [Option.map_some, this]

theorem ins_perm_mem (x : Sub) (l : List Sub) (y : Sub) : y ∈ ins x l ↔ y = x ∨ y ∈ l := by
  induction l with
  | nil => simp [ins]
  | cons z l ih =>
    unfold ins
    split
    · simp
    · simp only [List.mem_cons, ih]
      constructor
      · rintro (h | h | h)
        · exact .inr (.inl h)
        · exact .inl h
        · exact .inr (.inr h)
      · rintro (h | h | h)
        · exact .inr (.inl h)
        · exact .inl h
        · exact .inr (.inr h)

theorem ins_nodup {β : Type} (g : Sub → β) (x : Sub) : ∀ (l : List Sub), (l.map g).Nodup → g x ∉ l.map g → ((ins x l).map g).Nodup
  | [], _, _ => by simp [ins]
  | z :: l, h, hn => by
    unfold ins
    split
    · exact List.nodup_cons.2 ⟨hn, h⟩
    · have h' := List.nodup_cons.1 (show (g z :: l.map g).Nodup from h)
      refine List.nodup_cons.2 ⟨?_, ins_nodup g x l h'.2 fun hm => hn (List.mem_cons_of_mem _ hm)⟩
      intro hm
      obtain ⟨y, hy, e⟩ := List.mem_map.1 hm
      rcases (ins_perm_mem x l y).1 hy with rfl | hy
      · exact hn (by rw [List.map_cons, e]; simp)
      · exact h'.1 (List.mem_map.2 ⟨y, hy, e⟩)

theorem look_ins (x : Sub) : ∀ (l : List Sub), x.id ∉ l.map (·.id) → ∀ i, look (ins x l) i = if x.id = i then some x else look l i
  | [], _, i => by simp [ins, look_cons]
  | z :: l, hn, i => by
    unfold ins
    split
    · rw [look_cons]
    · rw [look_cons, look_ins x l (fun hm => hn (List.mem_cons_of_mem _ hm)), look_cons]
      by_cases e : z.id = i
      · rw [if_pos e, if_pos e, if_neg]
        intro e'
        exact hn (by rw [e', ← e]; simp)
      · rw [if_neg e, if_neg e]

theorem look_put {l : List Sub} (h : Ids l) (hr : ∀ j s, look l j = some s → s.refs ≠ 0) (i j : Nat) :
    look (put l i) j = if j = i then (look l i).bind fun s => if s.refs = 1 then none else some { s with refs := s.refs - 1 }
      else look l j := by
  unfold put
  have hi : Ids (setSub l i fun s => { s with refs := s.refs - 1 }) := by
    unfold Ids setSub
    rw [map_ids _ (by intro s; split <;> rfl)]; exact h
  rw [look_filter hi, look_setSub l i (fun s => { s with refs := s.refs - 1 }) (fun _ => rfl)]
  by_cases e : j = i
  · subst e
    simp only [if_true]
    cases hl : look l j with
    | none => rfl
    | some s =>
      have := hr j s hl
      simp only [Option.map_some, Option.filter, Option.bind_some]
      by_cases h1 : s.refs = 1
      · simp [h1]
      · have : s.refs - 1 ≠ 0 := by omega
        simp [h1, this]
  · simp only [if_neg e]
    cases hl : look l j with
    | none => rfl
    | some s => simp [Option.filter, hr j s hl]

theorem put_sub (l : List Sub) (i : Nat) : ∀ y ∈ put l i, ∃ x ∈ l, x.id = y.id ∧ x.name = y.name := by
  intro y hy
  obtain ⟨hy, _⟩ := List.mem_filter.1 hy
  obtain ⟨x, hx, rfl⟩ := List.mem_map.1 hy
  refine ⟨x, hx, ?_⟩
  split <;> exact ⟨rfl, rfl⟩

theorem put_ids {l : List Sub} (h : Ids l) (i : Nat) : Ids (put l i) := by
  unfold Ids put
  refine List.Nodup.sublist (List.Sublist.map _ List.filter_sublist) ?_
  unfold setSub
  rw [map_ids _ (by intro s; split <;> rfl)]; exact h

theorem put_nms {l : List Sub} (h : Nms l) (i : Nat) : Nms (put l i) := by
  unfold Nms put
  refine List.Nodup.sublist (List.Sublist.map _ List.filter_sublist) ?_
  unfold setSub
  rw [map_nms _ (by intro s; split <;> rfl)]; exact h

/-! ## The queue -/

def pend (i : Nat) : List Item → Nat
  | [] => 0
  | .msg (some j) _ _ :: q => (if j = i then 1 else 0) + pend i q
  | _ :: q => pend i q

theorem pend_append (i : Nat) : ∀ (a b : List Item), pend i (a ++ b) = pend i a + pend i b
  | [], b => by simp [pend]
  | x :: a, b => by
    have ih := pend_append i a b
    cases x with
    | msg id l t =>
      cases id with
      | none => simpa [pend] using ih
      | some j => simp only [List.cons_append, pend, ih]; omega
    | openf p g => simpa [pend] using ih
    | closef => simpa [pend] using ih

def nameOf (prog : Str) (l : List Sub) : Option Nat → Str
  | none => prog
  | some i => ((look l i).map (·.name)).getD []

def openTo (fp : Sink) (path : Nat) (good : Bool) : Sink :=
  if path = 0 then .syslog else if good then .file path else fp

def render (nm : Option Nat → Str) : Sink → List Item → List Line
  | _, [] => []
  | fp, .msg id level text :: q => ⟨writeTo fp, nm id, level, text⟩ :: render nm fp q
  | fp, .openf path good :: q => render nm (openTo fp path good) q
  | _, .closef :: q => render nm .std q

def drain : Sink → List Item → Sink
  | fp, [] => fp
  | fp, .msg _ _ _ :: q => drain fp q
  | fp, .openf path good :: q => drain (openTo fp path good) q
  | _, .closef :: q => drain .std q

def SafeQ : Sink → List Item → Prop
  | _, [] => True
  | fp, .msg _ _ _ :: q => SafeQ fp q
  | fp, .openf path good :: q => fp ≠ .syslog ∧ fp ≠ .std ∧ SafeQ (openTo fp path good) q
  | fp, .closef :: q => fp ≠ .null ∧ fp ≠ .std ∧ SafeQ .std q

theorem render_append (nm : Option Nat → Str) : ∀ (a b : List Item) (fp : Sink),
    render nm fp (a ++ b) = render nm fp a ++ render nm (drain fp a) b
  | [], b, fp => by simp [render, drain]
  | x :: a, b, fp => by cases x <;> simp [render, drain, render_append nm a b]

theorem drain_append : ∀ (a b : List Item) (fp : Sink), drain fp (a ++ b) = drain (drain fp a) b
  | [], b, fp => rfl
  | x :: a, b, fp => by cases x <;> simp [drain, drain_append a b]

theorem safe_append : ∀ (a b : List Item) (fp : Sink), SafeQ fp a → SafeQ (drain fp a) b → SafeQ fp (a ++ b)
  | [], b, fp, _, h => h
  | x :: a, b, fp, ha, hb => by
    cases x with
    | msg id l t => exact safe_append a b fp ha hb
    | openf p g => exact ⟨ha.1, ha.2.1, safe_append a b _ ha.2.2 hb⟩
    | closef => exact ⟨ha.1, ha.2.1, safe_append a b _ ha.2.2 hb⟩

theorem render_congr {nm nm' : Option Nat → Str} : ∀ (q : List Item) (fp : Sink), nm none = nm' none →
    (∀ i, pend i q ≠ 0 → nm (some i) = nm' (some i)) → render nm fp q = render nm' fp q
  | [], _, _, _ => rfl
  | .msg id level text :: q, fp, h0, h => by
    unfold render
    have ih := render_congr q fp h0 fun i hi => h i (by
      cases id with
      | none => exact hi
      | some j => unfold pend; omega)
    rw [ih]
    cases id with
    | none => rw [h0]
    | some j => rw [h j (by unfold pend; simp)]
  | .openf p g :: q, fp, h0, h => by
    unfold render
    exact render_congr q _ h0 fun i hi => h i hi
  | .closef :: q, fp, h0, h => by
    unfold render
    exact render_congr q _ h0 fun i hi => h i hi

/-! ## The invariant -/

structure Inv (w : W) (s : S) : Prop where
  prog : w.prog = s.prog
  dflt : w.dflt = s.dflt
  ids : Ids w.subs
  nms : Nms w.subs
  lt : ∀ x ∈ w.subs, x.id < w.next
  slt : ∀ i, s.sub i ≠ none → i < w.next
  /-- those in use -/
  live : ∀ i n l, s.sub i = some (n, l) → look w.subs i = some ⟨i, n, l, pend i w.q + 1⟩
  /-- those destroyed, with messages to write -/
  dead : ∀ i x, s.sub i = none → look w.subs i = some x → x.refs = pend i w.q ∧ pend i w.q ≠ 0
  queued : ∀ i, pend i w.q ≠ 0 → look w.subs i ≠ none
  lines : s.lines = w.lines ++ render (nameOf w.prog w.subs) w.fp w.q
  sink : s.sink = drain w.fp w.q
  safe : SafeQ w.fp w.q
  gone : w.gone = false

theorem Inv.refs {w : W} {s : S} (h : Inv w s) : ∀ j x, look w.subs j = some x → x.refs ≠ 0 := by
  intro j x hx
  cases hs : s.sub j with
  | none => have := h.dead j x hs hx; omega
  | some e =>
    obtain ⟨n, l⟩ := e
    have := h.live j n l hs
    rw [hx] at this
    have := congrArg Sub.refs (Option.some.inj this)
    simp only at this; omega

theorem level_eq (l : Int) : validLevel l = levelArg l := by
  unfold validLevel levelArg
  by_cases h1 : l = -1
  · rw [if_pos h1, if_pos h1]
  · rw [if_neg h1, if_neg h1]
    by_cases h2 : l / 32 = 0
    · rw [if_pos h2, if_pos (by omega)]
    · rw [if_neg h2, if_neg (by omega)]

def orD (d : Lv) : Lv → Lv
  | some m => some m
  | none => d

theorem enabled_iff (d l : Lv) (level : Nat) : enabled d l level = true ↔ Passes (orD d l) level := by
  unfold enabled Passes orD
  cases l with
  | some m => simp
  | none => cases d <;> simp

/-- A change of levels only. -/
theorem inv_levels {w : W} {s : S} (h : Inv w s) (f : Sub → Sub) (hf : ∀ x, (f x).id = x.id ∧ (f x).name = x.name ∧ (f x).refs = x.refs)
    (g : Nat → Option (Str × Lv)) (hg : ∀ i, (s.sub i = none ∧ g i = none) ∨
      ∃ n l x, s.sub i = some (n, l) ∧ look w.subs i = some x ∧ g i = some (n, (f x).level)) :
    Inv { w with subs := w.subs.map f } { s with sub := g } := by
  have lk : ∀ i, look (w.subs.map f) i = (look w.subs i).map f := look_map f (fun x => (hf x).1) w.subs
  refine ⟨h.prog, h.dflt, ?_, ?_, ?_, ?_, ?_, ?_, ?_, ?_, h.sink, h.safe, h.gone⟩
  · unfold Ids; rw [map_ids f (fun x => (hf x).1)]; exact h.ids
  · unfold Nms; rw [map_nms f (fun x => (hf x).2.1)]; exact h.nms
  · intro y hy
    obtain ⟨x, hx, rfl⟩ := List.mem_map.1 hy
    rw [(hf x).1]; exact h.lt x hx
  · intro i hi
    refine h.slt i fun e => ?_
    rcases hg i with ⟨_, e'⟩ | ⟨n, l, x, e', _⟩
    · exact hi e'
    · rw [e] at e'; exact nomatch e'
  · intro i n l hi
    rcases hg i with ⟨_, e'⟩ | ⟨n', l', x, e1, e2, e3⟩
    · simp only [e'] at hi; exact nomatch hi
    · simp only [e3, Option.some.injEq, Prod.mk.injEq] at hi
      have := h.live i n' l' e1
      rw [e2] at this
      have e4 := Option.some.inj this
      simp only [lk, e2, Option.map_some, Option.some.injEq]
      obtain ⟨a, b, c⟩ := hf x
      rw [e4] at a b c
      simp only at a b c
      obtain ⟨rfl, rfl⟩ := hi
      rw [e4] at *
      cases hfx : f ⟨i, n', l', pend i w.q + 1⟩
      simp only [hfx] at a b c
      subst a b c
      rfl
  · intro i x hi hx
    have hn : s.sub i = none := by
      rcases hg i with ⟨e, _⟩ | ⟨n', l', y, e1, e2, e3⟩
      · exact e
      · simp only [e3] at hi; exact nomatch hi
    simp only [lk] at hx
    obtain ⟨y, hy, rfl⟩ := Option.map_eq_some_iff.1 hx
    rw [(hf y).2.2]
    exact h.dead i y hn hy
  · intro i hi
    simp only [lk]
    intro e
    exact h.queued i hi (Option.map_eq_none_iff.1 e)
  · simp only [h.lines]
    congr 1
    refine render_congr _ _ rfl fun i _ => ?_
    simp only [nameOf, lk]
    cases look w.subs i with
    | none => rfl
    | some x => simp [(hf x).2.1]

theorem Inv.name_of {w : W} {s : S} (h : Inv w s) {i : Nat} {n : Str} {l : Lv} (hi : s.sub i = some (n, l)) :
    nameOf w.prog w.subs (some i) = n := by
  simp only [nameOf, h.live i n l hi, Option.map_some, Option.getD_some]

/-- Subsystems in use have different names. -/
theorem Inv.same_name {w : W} {s : S} (h : Inv w s) {x y : Sub} (hx : x ∈ w.subs) (hy : y ∈ w.subs) (e : x.name = y.name) : x = y := by
  have : ∀ (l : List Sub), Nms l → ∀ {x y : Sub}, x ∈ l → y ∈ l → x.name = y.name → x = y := by
    intro l
    induction l with
    | nil => intro _ x y hx; simp at hx
    | cons a l ih =>
      intro hn x y hx hy e
      have hn' := List.nodup_cons.1 (show (a.name :: l.map (·.name)).Nodup from hn)
      rcases List.mem_cons.1 hx with e1 | hx' <;> rcases List.mem_cons.1 hy with e2 | hy'
      · rw [e1, e2]
      · subst e1; exact absurd (List.mem_map.2 ⟨y, hy', e.symm⟩) hn'.1
      · subst e2; exact absurd (List.mem_map.2 ⟨x, hx', e⟩) hn'.1
      · exact ih hn'.2 hx' hy' e
  exact this _ h.nms hx hy e

theorem level_of {w : W} {s : S} (h : Inv w s) {i : Nat} {n : Str} {l : Lv} (hi : s.sub i = some (n, l)) :
    orD w.dflt l = s.level (some i) := by
  unfold S.level
  simp only [Option.bind_some, hi]
  cases l with
  | some m => rfl
  | none => exact h.dflt

theorem inv_setLevel_none {w : W} {s : S} (h : Inv w s) (v : Lv) :
    Inv (setLevel w none v) (match v with | none => s | some m => { s with dflt := some m }) := by
  cases v with
  | none => exact h
  | some m => exact ⟨h.prog, rfl, h.ids, h.nms, h.lt, h.slt, h.live, h.dead, h.queued, h.lines, h.sink, h.safe, h.gone⟩

theorem inv_set_some {w : W} {s : S} (h : Inv w s) (p : Nat → Str → Prop) [∀ i n, Decidable (p i n)] (v : Lv)
    (f : Sub → Sub) (hf : ∀ x ∈ w.subs, f x = if p x.id x.name then { x with level := v } else x)
    (hid : ∀ x, (f x).id = x.id ∧ (f x).name = x.name ∧ (f x).refs = x.refs) :
    Inv { w with subs := w.subs.map f } (s.setLevels p v) := by
  refine inv_levels h f hid _ fun i => ?_
  cases hs : s.sub i with
  | none => exact .inl ⟨rfl, rfl⟩
  | some e =>
    obtain ⟨n, l⟩ := e
    have hl := h.live i n l hs
    refine .inr ⟨n, l, _, rfl, hl, ?_⟩
    rw [hf _ (look_some hl).1]
    simp only [Option.map_some]
    split <;> rfl

theorem mem_iff_look {l : List Sub} (h : Ids l) {x : Sub} : x ∈ l ↔ look l x.id = some x :=
  ⟨look_mem h, fun h => (look_some h).1⟩

theorem setSub_level (w : W) (i : Nat) (v : Lv) :
    setLevel w (some i) v = { w with subs := w.subs.map fun s => if s.id = i then { s with level := v } else s } := rfl

theorem inv_step {w : W} {s : S} (h : Inv w s) (e : Ev) (hl : Legal s e) :
    ∃ w' rc, step w e = some (w', rc) ∧ Inv w' (s.step rc e) := by
  cases e with
  | register name =>
    simp only [step]
    by_cases hn : (w.subs.any fun s => s.name = name) = true
    · rw [if_pos hn]
      exact ⟨_, _, rfl, by simpa [S.step] using h⟩
    · rw [if_neg hn]
      refine ⟨_, _, rfl, ?_⟩
      have hrc : ¬ ((w.next : Int) < 0) := by omega
      simp only [S.step, if_neg hrc, Int.toNat_natCast, S.setSub]
      have hid : w.next ∉ w.subs.map (·.id) := by
        intro hm
        obtain ⟨x, hx, e⟩ := List.mem_map.1 hm
        have := h.lt x hx
        omega
      have hnm : name ∉ w.subs.map (·.name) := by
        intro hm
        obtain ⟨x, hx, e⟩ := List.mem_map.1 hm
        exact hn (List.any_eq_true.2 ⟨x, hx, by simpa using e⟩)
      have lk := look_ins ⟨w.next, name, none, 1⟩ w.subs hid
      have nol : look w.subs w.next = none := by
        rw [look_none]
        intro x hx e
        exact hid (List.mem_map.2 ⟨x, hx, e⟩)
      have nop : pend w.next w.q = 0 := by
        refine Classical.byContradiction fun hp => ?_
        exact h.queued _ hp nol
      refine ⟨h.prog, h.dflt, ins_nodup _ _ _ h.ids hid, ins_nodup _ _ _ h.nms hnm, ?_, ?_, ?_, ?_, ?_, ?_, h.sink, h.safe, h.gone⟩
      · intro x hx
        rcases (ins_perm_mem _ _ x).1 hx with rfl | hx
        · exact Nat.lt_succ_self _
        · exact Nat.lt_succ_of_lt (h.lt x hx)
      · intro i hi
        simp only at hi
        split at hi
        · show i < w.next + 1; omega
        · exact Nat.lt_succ_of_lt (h.slt i hi)
      · intro i n l hi
        simp only at hi
        rw [lk]
        split at hi
        · rename_i e
          subst e
          simp only [Option.some.injEq, Prod.mk.injEq] at hi
          obtain ⟨rfl, rfl⟩ := hi
          rw [if_pos rfl, nop]
        · rename_i e
          rw [if_neg (by simpa using fun h => e h.symm)]
          exact h.live i n l hi
      · intro i x hi hx
        simp only at hi
        split at hi
        · exact nomatch hi
        · rename_i e
          rw [lk, if_neg (by simpa using fun h => e h.symm)] at hx
          exact h.dead i x hi hx
      · intro i hi
        rw [lk]
        split
        · exact fun h => nomatch h
        · exact h.queued i hi
      · simp only [h.lines]
        congr 1
        refine render_congr _ _ rfl fun i hi => ?_
        simp only [nameOf, lk]
        rw [if_neg]
        intro e
        rw [← e] at hi
        exact hi nop
  | destroy id =>
    cases hs : s.sub id with
    | none => exact absurd hs hl
    | some e =>
      obtain ⟨n, l⟩ := e
      have hlk := h.live id n l hs
      have hg : get w id = some ⟨id, n, l, pend id w.q + 1⟩ := hlk
      simp only [step, hg]
      refine ⟨_, _, rfl, ?_⟩
      have lp := look_put h.ids h.refs id
      simp only [S.step, S.setSub]
      have lpi : look (put w.subs id) id = if pend id w.q = 0 then none else some ⟨id, n, l, pend id w.q⟩ := by
        rw [lp, if_pos rfl, hlk]
        by_cases hp : pend id w.q = 0
        · simp [hp]
        · simp [hp]
      refine ⟨h.prog, h.dflt, put_ids h.ids id, put_nms h.nms id, ?_, ?_, ?_, ?_, ?_, ?_, h.sink, h.safe, h.gone⟩
      · intro y hy
        obtain ⟨x, hx, e, _⟩ := put_sub _ _ y hy
        rw [← e]; exact h.lt x hx
      · intro i hi
        simp only at hi
        split at hi
        · exact absurd rfl hi
        · exact h.slt i hi
      · intro i m k hi
        simp only at hi
        split at hi
        · exact nomatch hi
        · rename_i e
          rw [lp, if_neg e]; exact h.live i m k hi
      · intro i x hi hx
        simp only at hi
        by_cases e : i = id
        · subst e
          simp only [lpi] at hx
          split at hx
          · exact nomatch hx
          · rename_i hp
            rw [← Option.some.inj hx]
            exact ⟨rfl, hp⟩
        · rw [if_neg e] at hi
          simp only [lp, if_neg e] at hx
          exact h.dead i x hi hx
      · intro i hi
        by_cases e : i = id
        · subst e
          simp only [lpi]
          rw [if_neg hi]; exact fun h => nomatch h
        · simp only [lp, if_neg e]; exact h.queued i hi
      · simp only [h.lines]
        congr 1
        refine render_congr _ _ rfl fun i hi => ?_
        simp only [nameOf]
        by_cases e : i = id
        · subst e
          rw [lpi, if_neg hi, hlk]; rfl
        · rw [lp, if_neg e]
  | setLevel id l =>
    simp only [step, S.step, level_eq]
    cases hv : levelArg l with
    | none => exact ⟨_, _, rfl, by cases id <;> exact h⟩
    | some v =>
      cases id with
      | none =>
        refine ⟨_, _, rfl, ?_⟩
        have := inv_setLevel_none h v
        cases v <;> exact this
      | some i =>
        have hl' : s.sub i ≠ none := hl
        cases hs : s.sub i with
        | none => exact absurd hs hl'
        | some e =>
          obtain ⟨n, k⟩ := e
          have hg : get w i = some ⟨i, n, k, pend i w.q + 1⟩ := h.live i n k hs
          simp only [hg]
          refine ⟨_, _, rfl, ?_⟩
          rw [setSub_level]
          have := inv_set_some h (fun j _ => j = i) v (fun s => if s.id = i then { s with level := v } else s)
            (fun _ _ => rfl) (by intro x; split <;> exact ⟨rfl, rfl, rfl⟩)
          cases v <;> exact this
  | setByName name l =>
    simp only [step, S.step, level_eq]
    cases name with
    | none =>
      cases hv : levelArg l with
      | none => exact ⟨_, _, rfl, h⟩
      | some v =>
        refine ⟨_, _, rfl, ?_⟩
        have := inv_setLevel_none h v
        cases v <;> exact this
    | some n =>
      simp only
      cases hf : w.subs.find? (fun s => s.name = n) with
      | none =>
        refine ⟨_, _, rfl, ?_⟩
        have hnone : ∀ x ∈ w.subs, x.name ≠ n := by
          intro x hx e
          have := List.find?_eq_none.1 hf x hx
          simp [e] at this
        cases hv : levelArg l with
        | none => exact h
        | some v =>
          have := inv_set_some h (fun _ m => m = n) v id
            (by intro x hx; rw [if_neg (hnone x hx)]; rfl) (by intro x; exact ⟨rfl, rfl, rfl⟩)
          rw [List.map_id] at this
          cases v <;> exact this
      | some x =>
        have hxm := List.mem_of_find?_eq_some hf
        have hxn : x.name = n := by have := List.find?_some hf; simpa using this
        simp only
        cases hv : levelArg l with
        | none => exact ⟨_, _, rfl, h⟩
        | some v =>
          refine ⟨_, _, rfl, ?_⟩
          rw [setSub_level]
          have := inv_set_some h (fun _ m => m = n) v (fun s => if s.id = x.id then { s with level := v } else s)
            (by
              intro y hy
              by_cases e : y.id = x.id
              · have : y = x := Option.some.inj ((look_mem h.ids hy).symm.trans (by rw [e]; exact look_mem h.ids hxm))
                rw [if_pos e, if_pos (this ▸ hxn)]
              · rw [if_neg e, if_neg]
                intro e'
                exact e (congrArg Sub.id (h.same_name hy hxm (e'.trans hxn.symm))))
            (by intro x; split <;> exact ⟨rfl, rfl, rfl⟩)
          cases v <;> exact this
  | setByRegex rx l =>
    simp only [step, S.step, level_eq]
    refine ⟨_, _, rfl, ?_⟩
    cases hv : levelArg l with
    | none => exact h
    | some v =>
      exact inv_set_some h (fun _ n => rx n = true) v (fun s => if rx s.name = true then { s with level := v } else s)
        (fun _ _ => rfl) (by intro x; split <;> exact ⟨rfl, rfl, rfl⟩)
  | log id level text =>
    cases id with
    | none =>
      have lv : orD w.dflt w.dflt = s.level none := by
        unfold S.level
        simp only [Option.bind_none, h.dflt]
        cases s.dflt <;> rfl
      have en := enabled_iff w.dflt w.dflt level
      rw [lv] at en
      simp only [step, S.step]
      by_cases he : enabled w.dflt w.dflt level = true
      · rw [if_pos he, if_pos (en.1 he)]
        refine ⟨_, _, rfl, ?_⟩
        have pe : ∀ i, pend i (w.q ++ [.msg none level text]) = pend i w.q := by
          intro i; rw [pend_append]; rfl
        refine ⟨h.prog, h.dflt, h.ids, h.nms, h.lt, h.slt, ?_, ?_, ?_, ?_, ?_, ?_, h.gone⟩
        · simp only [pe]; exact h.live
        · simp only [pe]; exact h.dead
        · simp only [pe]; exact h.queued
        · simp only [render_append, h.lines, List.append_assoc]
          congr 2
          simp only [render, nameOf, ← h.sink, S.name, h.prog, List.cons.injEq, Line.mk.injEq, and_true]
          unfold writeTo
          cases s.sink <;> rfl
        · simp only [drain_append, ← h.sink, drain]
        · exact safe_append _ _ _ h.safe trivial
      · rw [if_neg he, if_neg (fun hp => he (en.2 hp))]
        exact ⟨_, _, rfl, h⟩
    | some i =>
      have hl' : s.sub i ≠ none := hl
      cases hs : s.sub i with
      | none => exact absurd hs hl'
      | some e =>
        obtain ⟨n, k⟩ := e
        have hlk := h.live i n k hs
        have hg : get w i = some ⟨i, n, k, pend i w.q + 1⟩ := hlk
        have en := enabled_iff w.dflt k level
        rw [level_of h hs] at en
        simp only [step, S.step, hg]
        by_cases he : enabled w.dflt k level = true
        · rw [if_pos he, if_pos (en.1 he)]
          refine ⟨_, _, rfl, ?_⟩
          have pe : ∀ j, pend j (w.q ++ [.msg (some i) level text]) = pend j w.q + if i = j then 1 else 0 := by
            intro j; rw [pend_append]; rfl
          have lk : ∀ j, look (setSub w.subs i fun s => { s with refs := s.refs + 1 }) j =
              (look w.subs j).map fun s => if j = i then { s with refs := s.refs + 1 } else s :=
            look_setSub w.subs i _ (fun _ => rfl)
          have nmeq : ∀ j, nameOf w.prog (setSub w.subs i fun s => { s with refs := s.refs + 1 }) j = nameOf w.prog w.subs j := by
            intro j
            cases j with
            | none => rfl
            | some j =>
              simp only [nameOf, lk]
              cases look w.subs j with
              | none => rfl
              | some x => simp only [Option.map_some]; split <;> rfl
          refine ⟨h.prog, h.dflt, ?_, ?_, ?_, h.slt, ?_, ?_, ?_, ?_, ?_, ?_, h.gone⟩
          · unfold Ids setSub; simp only; rw [map_ids _ (by intro s; split <;> rfl)]; exact h.ids
          · unfold Nms setSub; simp only; rw [map_nms _ (by intro s; split <;> rfl)]; exact h.nms
          · intro y hy
            obtain ⟨x, hx, rfl⟩ := List.mem_map.1 hy
            have := h.lt x hx
            split <;> exact this
          · intro j m l hj
            simp only [lk, pe]
            rw [h.live j m l hj]
            simp only [Option.map_some, Option.some.injEq]
            by_cases e : j = i
            · rw [if_pos e, if_pos e.symm]
            · rw [if_neg e, if_neg (fun h => e h.symm)]
          · intro j x hj hx
            have hj' : s.sub j = none := hj
            have e : j ≠ i := fun e => by rw [e, hs] at hj'; exact nomatch hj'
            simp only [lk, if_neg e, Option.map_id'] at hx
            simp only [pe, if_neg (fun h : i = j => e h.symm)]
            exact h.dead j x hj' hx
          · intro j hj
            simp only [lk]
            intro e
            have e' := Option.map_eq_none_iff.1 e
            simp only [pe] at hj
            by_cases ej : i = j
            · subst ej; rw [hlk] at e'; exact nomatch e'
            · rw [if_neg ej] at hj
              exact h.queued j hj e'
          · simp only [render_append, h.lines, List.append_assoc]
            congr 1
            rw [render_congr (nm := nameOf w.prog (setSub w.subs i fun s => { s with refs := s.refs + 1 }))
              (nm' := nameOf w.prog w.subs) w.q w.fp rfl (fun j _ => nmeq (some j))]
            congr 1
            simp only [render, ← h.sink, nmeq, h.name_of hs, S.name, hs, Option.map_some, Option.getD_some, List.cons.injEq, Line.mk.injEq, and_true]
            unfold writeTo
            cases s.sink <;> rfl
          · simp only [drain_append, ← h.sink, drain]
          · exact safe_append _ _ _ h.safe trivial
        · rw [if_neg he, if_neg (fun hp => he (en.2 hp))]
          exact ⟨_, _, rfl, h⟩
  | openf path good =>
    refine ⟨_, _, rfl, ?_⟩
    have pe : ∀ i, pend i (w.q ++ [.openf path good]) = pend i w.q := by
      intro i; rw [pend_append]; rfl
    have hs : s.step 0 (.openf path good) = { s with sink := openTo s.sink path good } := by
      simp only [S.step, openTo]
      split
      · rfl
      · split <;> rfl
    rw [hs]
    refine ⟨h.prog, h.dflt, h.ids, h.nms, h.lt, h.slt, ?_, ?_, ?_, ?_, ?_, ?_, h.gone⟩
    · simp only [pe]; exact h.live
    · simp only [pe]; exact h.dead
    · simp only [pe]; exact h.queued
    · simp only [render_append, h.lines, render, List.append_nil]
    · simp only [drain_append, ← h.sink, drain]
    · refine safe_append _ _ _ h.safe ?_
      rw [← h.sink]
      exact ⟨hl.1, hl.2, trivial⟩
  | closef =>
    refine ⟨_, _, rfl, ?_⟩
    have pe : ∀ i, pend i (w.q ++ [.closef]) = pend i w.q := by
      intro i; rw [pend_append]; rfl
    refine ⟨h.prog, h.dflt, h.ids, h.nms, h.lt, h.slt, ?_, ?_, ?_, ?_, ?_, ?_, h.gone⟩
    · simp only [pe]; exact h.live
    · simp only [pe]; exact h.dead
    · simp only [pe]; exact h.queued
    · simp only [render_append, S.step, h.lines, render, List.append_nil]
    · simp only [drain_append, drain, S.step]
    · refine safe_append _ _ _ h.safe ?_
      rw [← h.sink]
      exact ⟨hl.1, hl.2, trivial⟩
  | work =>
    simp only [step, S.step]
    obtain ⟨prog, dflt, subs, next, q, fp, out, gone, lines⟩ := w
    have hg := h.gone
    simp only at hg
    subst hg
    cases q with
    | nil => exact ⟨_, _, rfl, h⟩
    | cons it q =>
      cases it with
      | msg id level text =>
        cases id with
        | none =>
          simp only [Bool.false_eq_true, and_false, if_false]
          refine ⟨_, _, rfl, ?_⟩
          refine ⟨h.prog, h.dflt, h.ids, h.nms, h.lt, h.slt, h.live, h.dead, h.queued, ?_, h.sink, h.safe, rfl⟩
          have := h.lines
          simp only [render, nameOf] at this
          simp only [this, List.append_assoc, List.cons_append, List.nil_append]
        | some i =>
          have hq : look subs i ≠ none := h.queued i (by simp [pend])
          cases hx : look subs i with
          | none => exact absurd hx hq
          | some x =>
            have hgx : get ⟨prog, dflt, subs, next, .msg (some i) level text :: q, fp, out, false, lines⟩ i = some x := hx
            simp only [hgx, Bool.false_eq_true, and_false, if_false]
            refine ⟨_, _, rfl, ?_⟩
            have lp := look_put h.ids h.refs i
            have hid := (look_some hx).2
            have pe : ∀ j, pend j (.msg (some i) level text :: q) = (if i = j then 1 else 0) + pend j q := fun j => rfl
            have lpi : look (put subs i) i = if x.refs = 1 then none else some { x with refs := x.refs - 1 } := by
              have := lp i
              rw [if_pos rfl, show look subs i = some x from hx] at this
              exact this
            have liv := h.live
            have ded := h.dead
            simp only [pe] at liv ded
            refine ⟨h.prog, h.dflt, put_ids h.ids i, put_nms h.nms i, ?_, h.slt, ?_, ?_, ?_, ?_, h.sink, h.safe, rfl⟩
            · intro y hy
              obtain ⟨z, hz, e, _⟩ := put_sub _ _ y hy
              rw [← e]; exact h.lt z hz
            · intro j n l hj
              by_cases e : j = i
              · subst e
                have := liv j n l hj
                rw [hx] at this
                have e := Option.some.inj this
                simp only [lpi, e]
                rw [if_neg (by simp only [if_true]; omega)]
                simp only [if_true, Option.some.injEq, Sub.mk.injEq, true_and]
                omega
              · simp only
                rw [lp, if_neg e]
                have := liv j n l hj
                rw [if_neg (fun h => e h.symm), Nat.zero_add] at this
                exact this
            · intro j y hj hy
              by_cases e : j = i
              · subst e
                have := ded j x hj hx
                simp only [if_true] at this
                simp only [lpi] at hy
                split at hy
                · exact nomatch hy
                · rw [← Option.some.inj hy]
                  simp only
                  omega
              · simp only at hy
                rw [lp, if_neg e] at hy
                have := ded j y hj hy
                rw [if_neg (fun h => e h.symm), Nat.zero_add] at this
                exact this
            · intro j hj
              by_cases e : j = i
              · subst e
                simp only [lpi]
                rw [if_neg]
                · exact fun h => nomatch h
                · simp only at hj
                  cases hs : s.sub j with
                  | none =>
                    have := ded j x hs hx
                    simp only [if_true] at this
                    omega
                  | some e =>
                    obtain ⟨n, l⟩ := e
                    have := liv j n l hs
                    rw [hx] at this
                    have e := congrArg Sub.refs (Option.some.inj this)
                    simp only [if_true] at e
                    omega
              · simp only
                rw [lp, if_neg e]
                refine h.queued j ?_
                simp only [pe]; simp only at hj; omega
            · have := h.lines
              simp only [render, nameOf, hx, Option.map_some, Option.getD_some] at this
              simp only [this, List.append_assoc, List.cons_append, List.nil_append]
              congr 2
              refine render_congr _ _ rfl fun j hj => ?_
              show nameOf prog subs (some j) = nameOf prog (put subs i) (some j)
              simp only [nameOf]
              by_cases e : j = i
              · subst e
                rw [lpi, hx, if_neg]
                · rfl
                · cases hs : s.sub j with
                  | none =>
                    have := ded j x hs hx
                    simp only [if_true] at this
                    omega
                  | some e =>
                    obtain ⟨n, l⟩ := e
                    have := liv j n l hs
                    rw [hx] at this
                    have e := congrArg Sub.refs (Option.some.inj this)
                    simp only [if_true] at e
                    omega
              · rw [lp, if_neg e]
      | openf path good =>
        have hs := h.safe
        simp only [SafeQ] at hs
        simp only [if_neg hs.1, hs.2.1, false_and, if_false, decide_false, Bool.or_false]
        by_cases hb : path ≠ 0 ∧ good = false
        · rw [if_pos hb]
          refine ⟨_, _, rfl, ?_⟩
          have ho : openTo fp path good = fp := by
            unfold openTo; rw [if_neg hb.1, hb.2]; rfl
          refine ⟨h.prog, h.dflt, h.ids, h.nms, h.lt, h.slt, h.live, h.dead, h.queued, ?_, ?_, ?_, rfl⟩
          · have := h.lines; simp only [render, ho] at this; exact this
          · have := h.sink; simp only [drain, ho] at this; exact this
          · rw [ho] at hs; exact hs.2.2
        · rw [if_neg hb]
          refine ⟨_, _, rfl, ?_⟩
          have ho : openTo fp path good = if path = 0 then Sink.syslog else .file path := by
            unfold openTo
            by_cases h0 : path = 0
            · rw [if_pos h0, if_pos h0]
            · rw [if_neg h0, if_neg h0]
              cases good with
              | true => rfl
              | false => exact absurd ⟨h0, rfl⟩ hb
          refine ⟨h.prog, h.dflt, h.ids, h.nms, h.lt, h.slt, h.live, h.dead, h.queued, ?_, ?_, ?_, rfl⟩
          · have := h.lines; simp only [render, ho] at this; exact this
          · have := h.sink; simp only [drain, ho] at this; exact this
          · rw [ho] at hs; exact hs.2.2
      | closef =>
        have hs := h.safe
        simp only [SafeQ] at hs
        simp only [if_neg hs.1, hs.2.1, false_and, if_false, decide_false, Bool.or_false]
        refine ⟨_, _, rfl, ?_⟩
        exact ⟨h.prog, h.dflt, h.ids, h.nms, h.lt, h.slt, h.live, h.dead, h.queued, h.lines, h.sink, hs.2.2, rfl⟩

theorem inv_init (prog : Str) (level : Lv) : Inv (init prog level) (S.init prog level) := by
  refine ⟨rfl, rfl, by simp [Ids, init], by simp [Nms, init], by simp [init], by simp [S.init], by simp [S.init], ?_, ?_, rfl, rfl, trivial, rfl⟩
  · intro i x _ hx; simp [init, look] at hx
  · intro i hi; exact absurd rfl hi

theorem run_inv {prog : Str} {level : Lv} {w : W} {s : S} (h : Run prog level w s) : Inv w s := by
  induction h with
  | init => exact inv_init prog level
  | step _ hl hs ih =>
    obtain ⟨w', rc, e, hi⟩ := inv_step ih _ hl
    rw [hs] at e
    obtain ⟨rfl, rfl⟩ := Prod.mk.inj (Option.some.inj e)
    exact hi

/-! ## Names of levels -/

theorem tokens_word (w s : Str) : ∀ acc, ',' ∉ w →
    tokens (w ++ ',' :: s) acc = (if acc.reverse ++ w = [] then [] else [acc.reverse ++ w]) ++ tokens s [] := by
  induction w with
  | nil =>
    intro acc _
    simp only [List.nil_append, List.append_nil, tokens, if_true, List.reverse_eq_nil_iff]
    split <;> rfl
  | cons c w ih =>
    intro acc hc
    simp only [List.mem_cons, not_or] at hc
    simp only [List.cons_append, tokens, if_neg (fun h : c = ',' => hc.1 h.symm)]
    rw [ih _ hc.2]
    simp

theorem tokens_last (w : Str) : ∀ acc, ',' ∉ w → tokens w acc = if acc.reverse ++ w = [] then [] else [acc.reverse ++ w] := by
  induction w with
  | nil =>
    intro acc _
    simp only [List.append_nil, tokens, List.reverse_eq_nil_iff]
  | cons c w ih =>
    intro acc hc
    simp only [List.mem_cons, not_or] at hc
    simp only [tokens, if_neg (fun h : c = ',' => hc.1 h.symm)]
    rw [ih _ hc.2]
    simp

theorem tokens_listText (last : Str) (hl : ',' ∉ last) : ∀ ws : List Str, (∀ w ∈ ws, ',' ∉ w) →
    tokens (listText ws last) [] = (ws ++ [last]).filter fun w => decide (w ≠ [])
  | [], _ => by
    simp only [listText, List.nil_append]
    rw [tokens_last _ _ hl]
    by_cases h : last = [] <;> simp [h]
  | w :: ws, hw => by
    simp only [listText, List.cons_append]
    rw [tokens_word _ _ _ (hw w (by simp)), tokens_listText last hl ws fun v hv => hw v (by simp [hv]), List.filter_cons]
    by_cases h : w = [] <;> simp [h]

theorem nameLevel_some {w : Str} {l : Nat} (h : nameLevel w = some l) :
    (lower w = "quiet".toList ∧ l = 0) ∨ ∃ sev, Names w sev ∧ l = sev.value := by
  unfold nameLevel at h
  split at h
  · rename_i e; exact .inl ⟨e, (Option.some.inj h).symm⟩
  · refine .inr ?_
    split at h
    · rename_i e; exact ⟨.always, by simp [Names, Sev.names, e], (Option.some.inj h).symm⟩
    · split at h
      · rename_i e; exact ⟨.critical, by rcases e with e | e <;> simp [Names, Sev.names, e], (Option.some.inj h).symm⟩
      · split at h
        · rename_i e; exact ⟨.error, by simp [Names, Sev.names, e], (Option.some.inj h).symm⟩
        · split at h
          · rename_i e; exact ⟨.warning, by rcases e with e | e <;> simp [Names, Sev.names, e], (Option.some.inj h).symm⟩
          · split at h
            · rename_i e; exact ⟨.info, by simp [Names, Sev.names, e], (Option.some.inj h).symm⟩
            · split at h
              · rename_i e; exact ⟨.debug, by simp [Names, Sev.names, e], (Option.some.inj h).symm⟩
              · exact nomatch h

theorem nameLevel_name {w : Str} {sev : Sev} (h : Names w sev) : nameLevel w = some sev.value := by
  unfold Names at h
  unfold nameLevel
  generalize lower w = v at *
  cases sev <;> simp only [Sev.names, List.mem_cons, List.not_mem_nil, or_false] at h
  · subst h; decide
  · subst h; decide
  · rcases h with h | h <;> (subst h; decide)
  · subst h; decide
  · rcases h with h | h <;> (subst h; decide)
  · subst h; decide

theorem nameLevel_quiet {w : Str} (h : lower w = "quiet".toList) : nameLevel w = some 0 := by
  unfold nameLevel; rw [if_pos h]; rfl

theorem value_bits (sev : Sev) (j : Nat) : sev.value.testBit j = true ↔ if sev = .always then j < 5 else j = sev.rank := by
  by_cases h : j < 6
  · have : ∀ (sev : Sev) (j : Fin 6), (sev.value.testBit j.1 = true ↔ if sev = .always then j.1 < 5 else j.1 = sev.rank) := by
      intro sev j
      cases sev <;> (revert j; decide +kernel)
    exact this sev ⟨j, h⟩
  · have hz : sev.value.testBit j = false := by
      refine Nat.testBit_lt_two_pow ?_
      have : sev.value < 2 ^ 6 := by cases sev <;> decide
      exact Nat.lt_of_lt_of_le this (Nat.pow_le_pow_right (by decide) (by omega))
    rw [hz]
    have : ¬ (if sev = Sev.always then j < 5 else j = sev.rank) := by
      cases sev <;> simp [Sev.rank] <;> omega
    simp [this]

theorem orAll_some {ws : List Str} : ∀ {l m : Nat}, orAll ws l = some m →
    (∀ w ∈ ws, lower w = "quiet".toList ∨ ∃ sev, Names w sev) ∧
    ∀ j, m.testBit j = true ↔ l.testBit j = true ∨ ∃ w ∈ ws, ∃ sev, Names w sev ∧ sev.value.testBit j = true := by
  induction ws with
  | nil =>
    intro l m h
    have := Option.some.inj h
    subst this
    simp
  | cons w ws ih =>
    intro l m h
    unfold orAll at h
    split at h
    · exact nomatch h
    · rename_i k hk
      obtain ⟨h1, h2⟩ := ih h
      constructor
      · intro v hv
        rcases List.mem_cons.1 hv with e | hv
        · subst e
          rcases nameLevel_some hk with ⟨h, _⟩ | ⟨sev, h, _⟩
          · exact .inl h
          · exact .inr ⟨sev, h⟩
        · exact h1 v hv
      · intro j
        rw [h2 j, Nat.testBit_or, Bool.or_eq_true, or_assoc]
        refine or_congr_right ?_
        have : k.testBit j = true ↔ ∃ sev, Names w sev ∧ sev.value.testBit j = true := by
          constructor
          · intro hb
            rcases nameLevel_some hk with ⟨_, h⟩ | ⟨sev, h, e⟩
            · subst h; simp at hb
            · exact ⟨sev, h, e ▸ hb⟩
          · rintro ⟨sev, h, hb⟩
            rw [nameLevel_name h] at hk
            rw [← Option.some.inj hk]; exact hb
        rw [this]
        simp

theorem orAll_none {ws : List Str} : ∀ {l : Nat}, orAll ws l = none → ∃ w ∈ ws, lower w ≠ "quiet".toList ∧ ∀ sev, ¬ Names w sev := by
  induction ws with
  | nil => intro l h; exact nomatch h
  | cons w ws ih =>
    intro l h
    unfold orAll at h
    split at h
    · rename_i hk
      refine ⟨w, by simp, ?_, ?_⟩
      · intro e; rw [nameLevel_quiet e] at hk; exact nomatch hk
      · intro sev e; rw [nameLevel_name e] at hk; exact nomatch hk
    · obtain ⟨v, hv, h⟩ := ih h
      exact ⟨v, by simp [hv], h⟩

theorem lower_comma {w : Str} (h : ',' ∈ w) : ',' ∈ lower w := List.mem_map.2 ⟨',', h, by decide⟩

theorem names_no_comma {w : Str} {sev : Sev} (h : Names w sev) : ',' ∉ w := by
  intro hc
  have := lower_comma hc
  unfold Names at h
  generalize lower w = v at *
  cases sev <;> simp only [Sev.names, List.mem_cons, List.not_mem_nil, or_false] at h
  · subst h; revert this; decide
  · subst h; revert this; decide
  · rcases h with h | h <;> (subst h; revert this; decide)
  · subst h; revert this; decide
  · rcases h with h | h <;> (subst h; revert this; decide)
  · subst h; revert this; decide

theorem listText_comma (w : Str) (ws : List Str) (last : Str) : ',' ∈ listText (w :: ws) last := by
  simp [listText]

end Verif.Log
