import Verif.BlobFile.Spec

/-!
# The invariant of the files
-/

namespace Verif.BlobFile

def total : List Msg → Nat
  | [] => 0
  | m :: ms => total ms + m.data.length

def cDat : List Msg → List Nat
  | [] => magic .dat
  | m :: ms => cDat ms ++ m.data

def cOff (base : Nat) : List Msg → List Nat
  | [] => magic .off
  | m :: ms => cOff base ms ++ le 8 (base + total ms)

def cTim : List Msg → List Nat
  | [] => magic .tim
  | m :: ms => cTim ms ++ (le 8 m.sec ++ le 8 m.usec)

def cTyp : List Msg → List Nat
  | [] => magic .typ
  | m :: ms => cTyp ms ++ [typeChar m.type]

structure Stored (fs : Files) (g : Gen) (base : Nat) (sp : Bool) : Prop where
  dat : fs ⟨g.dir, sp, .dat, g.time⟩ = some (cDat g.msgs)
  off : fs ⟨g.dir, sp, .off, g.time⟩ = some (cOff base g.msgs)
  tim : ∀ d, g.tim = some d → fs ⟨d, sp, .tim, g.time⟩ = some (cTim g.msgs)
  typ : ∀ d, g.typ = some d → fs ⟨d, sp, .typ, g.time⟩ = some (cTyp g.msgs)

def sum : List Gen → Nat
  | [] => 0
  | g :: gs => sum gs + 8 + total g.msgs

def AllStored (fs : Files) : List Gen → Prop
  | [] => True
  | g :: gs => (∃ sp, Stored fs g (sum gs + 8) sp) ∧ AllStored fs gs

/-- only files of this time are different -/
def Agree (t : Nat) (fs fs' : Files) : Prop := ∀ n, n.time ≠ t → fs' n = fs n

theorem Agree.trans {t : Nat} {a b c : Files} (h : Agree t a b) (k : Agree t b c) : Agree t a c := fun n hn => (k n hn).trans (h n hn)

theorem agree_put {t : Nat} {fs : Files} {d : Nat} {s : Bool} {k : Kind} {v : Option (List Nat)} : Agree t fs (put fs ⟨d, s, k, t⟩ v) := by
  intro n hn
  unfold put
  rw [if_neg]
  intro e
  rw [e] at hn
  exact hn rfl

theorem agree_start {t : Nat} {fs : Files} {k : Kind} {o : Option Nat} : Agree t fs (start fs k t o) := by
  cases o with
  | none => exact fun _ _ => rfl
  | some d => exact agree_put

theorem agree_write {t : Nat} {fs : Files} {k : Kind} {bs : List Nat} {o : Option Nat} : Agree t fs (write fs k t bs o) := by
  cases o with
  | none => exact fun _ _ => rfl
  | some d => exact agree_put

theorem agree_finish {spool : Bool} {t : Nat} {fs : Files} {k : Kind} {o : Option Nat} : Agree t fs (finish spool fs k t o) := by
  cases o with
  | none => exact fun _ _ => rfl
  | some d =>
    unfold finish
    split
    · rename_i h; cases h
    · rename_i h
      cases h
      split
      · exact agree_put.trans agree_put
      · exact fun _ _ => rfl

theorem Stored.frame {t : Nat} {fs fs' : Files} {g : Gen} {b : Nat} {sp : Bool} (h : Stored fs g b sp) (ha : Agree t fs fs') (hg : g.time ≠ t) : Stored fs' g b sp :=
  ⟨(ha _ hg).trans h.dat, (ha _ hg).trans h.off, fun d hd => (ha _ hg).trans (h.tim d hd), fun d hd => (ha _ hg).trans (h.typ d hd)⟩

theorem AllStored.frame {t : Nat} {fs fs' : Files} (ha : Agree t fs fs') : ∀ {gs : List Gen}, AllStored fs gs → t ∉ gs.map Gen.time → AllStored fs' gs
  | [], _, _ => trivial
  | g :: gs, ⟨⟨sp, h⟩, hs⟩, hn => by
    simp only [List.map_cons, List.mem_cons, not_or] at hn
    exact ⟨⟨sp, h.frame ha fun e => hn.1 e.symm⟩, hs.frame ha hn.2⟩

structure SdOK (st : St) (sd : Sd) : Prop where
  clock : sd.ws = .opened → sd.time ≠ none
  fresh : sd.ws = .new → sd.time = none
  cur : ∀ t, sd.time = some t → ∃ g gs, st.gens = g :: gs ∧ g.time = t ∧ sd.main = some g.dir ∧ sd.tim = g.tim ∧ sd.typ = g.typ ∧
    ((st.gens.map Gen.time).Nodup → Stored st.fs g (sum gs + 8) false)
  offset : sd.offset = sum st.gens

structure Inv (st : St) : Prop where
  none : st.sd = none → st.closing = true ∨ st.gens = []
  sd : ∀ sd, st.sd = some sd → SdOK st sd
  all : (st.gens.map Gen.time).Nodup → AllStored st.fs st.gens

theorem inv_init : Inv init := ⟨fun _ => .inr rfl, fun _ h => (nomatch h), fun _ => trivial⟩

theorem inv_open {st : St} {sd : Sd} (h : Inv st) (hs : st.sd = some sd) (t : Nat) (s : List Msg) : Inv (openFiles { st with sent := s } sd t) := by
  unfold openFiles
  have hS := h.sd sd hs
  cases hm : sd.main with
  | none =>
    refine ⟨fun h => (nomatch h), ?_, h.all⟩
    intro sd' hsd
    cases hsd
    exact ⟨fun h => (nomatch h), fun h => (nomatch h), (by
      intro t ht
      obtain ⟨g, gs, a1, a2, a3, a⟩ := hS.cur t ht
      rw [hm] at a3
      cases a3), hS.offset⟩
  | some d =>
    have ha : Agree t st.fs (start (start (start (start st.fs .off t (some d)) .dat t (some d)) .tim t sd.tim) .typ t sd.typ) :=
      ((agree_start.trans agree_start).trans agree_start).trans agree_start
    have hst : Stored (start (start (start (start st.fs .off t (some d)) .dat t (some d)) .tim t sd.tim) .typ t sd.typ) ⟨d, sd.tim, sd.typ, t, []⟩ (sum st.gens + 8) false := by
      constructor
      · cases sd.tim <;> cases sd.typ <;> simp [start, put, cDat]
      · cases sd.tim <;> cases sd.typ <;> simp [start, put, cOff]
      · intro x hx
        dsimp only at hx
        rw [hx]
        cases sd.typ <;> simp [start, put, cTim]
      · intro x hx
        dsimp only at hx
        rw [hx]
        simp [start, put, cTyp]
    refine ⟨fun h => (nomatch h), ?_, ?_⟩
    · intro sd' hsd
      cases hsd
      refine ⟨fun _ h => (nomatch h), fun h => (nomatch h), ?_, ?_⟩
      · intro t' ht
        cases ht
        exact ⟨_, _, rfl, rfl, rfl, rfl, rfl, fun _ => hst⟩
      · dsimp only
        rw [hS.offset, sum]
        simp [total]
    · intro hn
      dsimp only at hn ⊢
      rw [List.map_cons, List.nodup_cons] at hn
      exact ⟨⟨false, hst⟩, (h.all hn.2).frame ha hn.1⟩

theorem inv_store {st : St} {sd : Sd} (h : Inv st) (hs : st.sd = some sd) (ho : sd.ws = .opened) {t : Nat} (ht : sd.time = some t) (m : Msg) (w : Nat) : Inv (store st sd t m w).1 := by
  have hS := h.sd sd hs
  obtain ⟨g, gs, h1, h2, h3, h4, h5, h6⟩ := hS.cur t ht
  have hmap : (record { m with data := m.data.take w } st.gens).map Gen.time = st.gens.map Gen.time := by rw [h1]; rfl
  have hoff : sd.offset = sum gs + 8 + total g.msgs := by rw [hS.offset, h1]; rfl
  unfold store
  dsimp only
  rw [h3]
  have ha : Agree t st.fs (write (write (write (write st.fs .off t (le 8 sd.offset) (some g.dir)) .tim t (le 8 m.sec ++ le 8 m.usec) sd.tim) .typ t [typeChar m.type] sd.typ) .dat t (m.data.take w) (some g.dir)) :=
    ((agree_write.trans agree_write).trans agree_write).trans agree_write
  have hst : (st.gens.map Gen.time).Nodup → Stored (write (write (write (write st.fs .off t (le 8 sd.offset) (some g.dir)) .tim t (le 8 m.sec ++ le 8 m.usec) sd.tim) .typ t [typeChar m.type] sd.typ) .dat t (m.data.take w) (some g.dir))
      { g with msgs := { m with data := m.data.take w } :: g.msgs } (sum gs + 8) false := by
    intro hn
    obtain ⟨c1, c2, c3, c4⟩ := h6 hn
    subst h2
    rw [h4, h5]
    constructor
    · cases g.tim <;> cases g.typ <;> simp [write, add, put, cDat, c1]
    · cases g.tim <;> cases g.typ <;> simp [write, add, put, cOff, c2, hoff]
    · intro x hx
      dsimp only at hx
      have := c3 x hx
      rw [hx]
      cases g.typ <;> simp [write, add, put, cTim, this]
    · intro x hx
      dsimp only at hx
      have := c4 x hx
      rw [hx]
      cases g.tim <;> simp [write, add, put, cTyp, this]
  generalize write (write (write (write st.fs .off t (le 8 sd.offset) (some g.dir)) .tim t (le 8 m.sec ++ le 8 m.usec) sd.tim) .typ t [typeChar m.type] sd.typ) .dat t (m.data.take w) (some g.dir) = fs' at ha hst ⊢
  refine ⟨fun h => (nomatch h), ?_, ?_⟩
  · intro sd' hsd
    cases hsd
    refine ⟨fun _ => hS.clock ho, hS.fresh, ?_, ?_⟩
    · intro t' ht'
      have ht' : sd.time = some t' := ht'
      obtain rfl : t = t' := Option.some.inj (ht.symm.trans ht')
      refine ⟨{ g with msgs := { m with data := m.data.take w } :: g.msgs }, gs, by dsimp only; rw [h1]; rfl, h2, rfl, h4, h5, ?_⟩
      dsimp only
      rw [hmap]
      exact hst
    · dsimp only
      rw [hoff, h1]
      simp only [record, sum, total]
      omega
  · dsimp only
    rw [hmap]
    intro hn
    have hall := h.all hn
    have hst := hst hn
    rw [h1] at hall hn ⊢
    rw [List.map_cons, List.nodup_cons] at hn
    exact ⟨⟨false, hst⟩, hall.2.frame ha (h2 ▸ hn.1)⟩

theorem inv_message {st : St} (h : Inv st) (m : Msg) (now w : Nat) : Inv (message st m now w).1 := by
  unfold message
  cases hs : st.sd with
  | none => exact h
  | some sd =>
    dsimp only
    split
    · exact h
    · have h' : Inv (arrive st sd m now w) := by
        unfold arrive
        dsimp only
        split
        · exact inv_open h hs _ _
        · exact ⟨h.none, fun sd hsd => ⟨(h.sd sd hsd).clock, (h.sd sd hsd).fresh, (h.sd sd hsd).cur, (h.sd sd hsd).offset⟩, h.all⟩
      generalize arrive st sd m now w = st1 at h' ⊢
      split
      · exact h'
      · rename_i sd1 hs1
        split
        · rename_i ho
          split
          · exact h'
          · rename_i t ht
            exact inv_store h' hs1 ho ht m w
        · exact h'

/-- the files of an opening are closed -/
theorem stored_finish {spool : Bool} {fs : Files} {sd : Sd} {g : Gen} {b : Nat} (h3 : sd.main = some g.dir) (h4 : sd.tim = g.tim) (h5 : sd.typ = g.typ)
    (h : Stored fs g b false) : ∃ sp, Stored (finishAll spool fs sd g.time) g b sp := by
  obtain ⟨c1, c2, c3, c4⟩ := h
  unfold finishAll
  rw [h3, h4, h5]
  cases spool with
  | false =>
    refine ⟨false, ?_⟩
    have e : ∀ (fs : Files) k o, finish false fs k g.time o = fs := by
      intro fs k o
      cases o <;> simp [finish]
    rw [e, e, e, e]
    exact ⟨c1, c2, c3, c4⟩
  | true =>
    refine ⟨true, ?_⟩
    constructor
    · cases g.tim <;> cases g.typ <;> simp [finish, put, c1]
    · cases g.tim <;> cases g.typ <;> simp [finish, put, c2]
    · intro x hx
      have := c3 x hx
      rw [hx]
      cases g.typ <;> simp [finish, put, this]
    · intro x hx
      have := c4 x hx
      rw [hx]
      cases g.tim <;> simp [finish, put, this]

theorem agree_all {spool : Bool} {fs : Files} {sd : Sd} {t : Nat} : Agree t fs (finishAll spool fs sd t) :=
  ((agree_finish.trans agree_finish).trans agree_finish).trans agree_finish

theorem all_finish {st : St} {sd : Sd} {spool : Bool} (h : Inv st) (hs : SdOK st sd) {t : Nat} (ht : sd.time = some t) (hn : (st.gens.map Gen.time).Nodup) :
    AllStored (finishAll spool st.fs sd t) st.gens := by
  obtain ⟨g, gs, h1, h2, h3, h4, h5, h6⟩ := hs.cur t ht
  have hall := h.all hn
  have h6 := h6 hn
  rw [h1] at hall hn ⊢
  rw [List.map_cons, List.nodup_cons] at hn
  subst h2
  exact ⟨stored_finish h3 h4 h5 h6, hall.2.frame agree_all hn.1⟩

theorem inv_paths {st : St} (h : Inv st) {sd : Sd} (hs : SdOK st sd) (d : Nat) (ti ty : Bool) :
    let p := if sd.ws = .reopen then resetPaths st.spool st.fs sd else (st.fs, sd)
    Inv { st with fs := p.1, sd := some (if p.2.ws = .new then setPaths d ti ty p.2 else p.2) } := by
  dsimp only
  by_cases hr : sd.ws = .reopen
  · rw [if_pos hr]
    unfold resetPaths
    cases ht : sd.time with
    | none =>
      dsimp only
      rw [if_pos rfl]
      refine ⟨fun h => (nomatch h), ?_, h.all⟩
      intro sd' hsd
      cases hsd
      exact ⟨fun h => (nomatch h), fun _ => rfl, fun t' ht' => (nomatch ht'), hs.offset⟩
    | some t =>
      dsimp only
      rw [if_pos rfl]
      refine ⟨fun h => (nomatch h), ?_, all_finish h hs ht⟩
      intro sd' hsd
      cases hsd
      exact ⟨fun h => (nomatch h), fun _ => rfl, fun t' ht' => (nomatch ht'), hs.offset⟩
  · rw [if_neg hr]
    dsimp only
    refine ⟨fun h => (nomatch h), ?_, h.all⟩
    intro sd' hsd
    cases hsd
    split
    · rename_i hw
      have ht := hs.fresh hw
      exact ⟨fun h => (by rw [show (setPaths d ti ty sd).ws = sd.ws from rfl, hw] at h; cases h), fun _ => ht, (by intro t' ht'; rw [show (setPaths d ti ty sd).time = sd.time from rfl, ht] at ht'; cases ht'), hs.offset⟩
    · exact ⟨hs.clock, hs.fresh, hs.cur, hs.offset⟩

theorem inv_config {st : St} (h : Inv st) (named : Bool) (dir : Option Nat) (ti ty sp : Bool) : Inv (config st named dir ti ty sp) := by
  unfold config
  by_cases hc : st.closing = true
  · rw [if_pos hc]; exact h
  · rw [if_neg hc]
    have h0 : Inv { st with spool := sp } := ⟨h.none, fun sd hsd => ⟨(h.sd sd hsd).clock, (h.sd sd hsd).fresh, (h.sd sd hsd).cur, (h.sd sd hsd).offset⟩, h.all⟩
    have h1 : Inv (if named = true then { { st with spool := sp } with sd := some (addStream st.sd) } else { st with spool := sp }) := by
      split
      · refine ⟨fun h => (nomatch h), ?_, h.all⟩
        intro sd' hsd
        cases hsd
        cases hs : st.sd with
        | none =>
          have hg : st.gens = [] := (h.none hs).resolve_left hc
          exact ⟨fun h => (nomatch h), fun _ => rfl, fun t ht => (nomatch ht), by dsimp only; rw [hg]; rfl⟩
        | some sd =>
          have hS := h.sd sd hs
          exact ⟨fun h => (nomatch h), fun h => (nomatch h), hS.cur, hS.offset⟩
      · exact h0
    dsimp only
    generalize (if named = true then { { st with spool := sp } with sd := some (addStream st.sd) } else { st with spool := sp }) = st1 at h1 ⊢
    split
    · exact h1
    · split
      · exact h1
      · rename_i d _ sd hs
        exact inv_paths h1 (h1.sd sd hs) d ti ty

theorem inv_term {st : St} (h : Inv st) : Inv (term st) := by
  unfold term
  cases hs : st.sd with
  | none => exact ⟨fun _ => .inl rfl, (fun _ h => (nomatch h)), h.all⟩
  | some sd =>
    dsimp only
    cases ht : sd.time with
    | none => exact ⟨fun _ => .inl rfl, fun _ h => (nomatch h), h.all⟩
    | some t => exact ⟨fun _ => .inl rfl, fun _ h => (nomatch h), all_finish h (h.sd sd hs) ht⟩

theorem inv_step {st : St} (h : Inv st) (a : Act) : Inv (step st a) := by
  cases a with
  | config n d ti ty s => exact inv_config h n d ti ty s
  | message m now w => exact inv_message h m now w
  | term => exact inv_term h

theorem inv_run : ∀ {as : List Act} {st : St}, Inv st → Inv (run st as)
  | [], _, h => h
  | a :: as, st, h => inv_run (as := as) (st := step st a) (inv_step h a)

theorem inv_reach {st : St} (h : Reachable st) : Inv st := by
  obtain ⟨as, rfl⟩ := h
  exact inv_run inv_init

end Verif.BlobFile
