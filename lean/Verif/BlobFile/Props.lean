import Verif.BlobFile.Proofs

/-!
# C85: messages of a stream can be read from its files
-/

namespace Verif.BlobFile

theorem numbers_le {a : Nat} {l : List Nat} : numbers (le 8 a ++ l) = a % 2 ^ 64 :: numbers l := by
  simp only [le, List.cons_append, List.nil_append, numbers, number]
  congr 1
  omega

theorem numbers_flat : ∀ {xs : List Nat}, numbers (xs.flatMap (le 8)) = xs.map (· % 2 ^ 64)
  | [] => rfl
  | x :: xs => by rw [List.flatMap_cons, numbers_le, numbers_flat, List.map_cons]

theorem starts_append {d : List Nat} : ∀ {ds : List (List Nat)} {b : Nat}, starts b (ds ++ [d]) = starts b ds ++ [b + ds.flatten.length]
  | [], b => by simp [starts]
  | e :: ds, b => by
    rw [List.cons_append, starts, starts_append, starts, List.cons_append, List.flatten_cons, List.length_append, Nat.add_assoc]

theorem total_flat : ∀ {ms : List Msg}, (ms.reverse.map Msg.data).flatten.length = total ms
  | [] => rfl
  | m :: ms => by simp [total, ← total_flat (ms := ms)]

theorem cDat_eq : ∀ {ms : List Msg}, cDat ms = magic .dat ++ (ms.reverse.map Msg.data).flatten
  | [] => by simp [cDat]
  | m :: ms => by simp [cDat, cDat_eq (ms := ms)]

theorem cOff_eq {b : Nat} : ∀ {ms : List Msg}, cOff b ms = magic .off ++ (starts b (ms.reverse.map Msg.data)).flatMap (le 8)
  | [] => by simp [cOff, starts]
  | m :: ms => by
    rw [cOff, cOff_eq, List.reverse_cons, List.map_append, List.map_cons, List.map_nil, starts_append, total_flat]
    simp

theorem cTim_eq : ∀ {ms : List Msg}, cTim ms = magic .tim ++ (ms.reverse.flatMap fun m => [m.sec, m.usec]).flatMap (le 8)
  | [] => by simp [cTim]
  | m :: ms => by simp [cTim, cTim_eq (ms := ms)]

theorem cTyp_eq : ∀ {ms : List Msg}, cTyp ms = magic .typ ++ ms.reverse.map fun m => typeChar m.type
  | [] => by simp [cTyp]
  | m :: ms => by simp [cTyp, cTyp_eq (ms := ms)]

theorem times_flat : ∀ {ms : List Msg}, times ((ms.flatMap fun m => [m.sec, m.usec]).map (· % 2 ^ 64)) = ms.map fun m => (m.sec % 2 ^ 64, m.usec % 2 ^ 64)
  | [] => rfl
  | m :: ms => by
    rw [List.flatMap_cons]
    simp only [List.cons_append, List.nil_append, List.map_cons, times]
    rw [times_flat]

theorem sum_eq : ∀ {gs : List Gen}, sum gs = (gs.map Gen.size).sum
  | [] => rfl
  | g :: gs => by
    have : ∀ ms : List Msg, total ms = (ms.map fun m => m.data.length).sum := by
      intro ms
      induction ms with
      | nil => rfl
      | cons m ms ih => simp [total, ih]; omega
    simp [sum, sum_eq (gs := gs), Gen.size, this]
    omega

theorem stored_at {fs : Files} : ∀ {newer older : List Gen} {g : Gen}, AllStored fs (newer ++ g :: older) → ∃ sp, Stored fs g (sum older + 8) sp
  | [], _, _, h => h.1
  | _ :: _, _, _, h => stored_at h.2

/-- **C85.** What is in the files of an opening, if no two were in the same second: the data file has its word and the messages one after the other; the offset file
its word and a number for each message, where the message begins, but counted from the beginning of the first data file ever opened as if all had been one; the file of times the
time of each message and the file of types its type.  All of them are in one directory or all in its spool directory (that of the last two may be another, see `stale_defect`). -/
theorem files_hold {st : St} (hr : Reachable st) (ht : (st.gens.map Gen.time).Nodup) {newer older : List Gen} {g : Gen} (hg : st.gens = newer ++ g :: older) :
    ∃ sp dat off, st.fs ⟨g.dir, sp, .dat, g.time⟩ = some dat ∧ st.fs ⟨g.dir, sp, .off, g.time⟩ = some off ∧
      dat = [98, 108, 111, 98, 100, 97, 116, 0] ++ (g.messages.map Msg.data).flatten ∧
      off.take 8 = [98, 108, 111, 98, 111, 102, 102, 0] ∧
      numbers (off.drop 8) = (starts ((older.map Gen.size).sum + 8) (g.messages.map Msg.data)).map (· % 2 ^ 64) ∧
      (∀ d, g.tim = some d → ∃ f, st.fs ⟨d, sp, .tim, g.time⟩ = some f ∧ f.take 8 = [98, 108, 111, 98, 116, 105, 109, 0] ∧
        times (numbers (f.drop 8)) = g.messages.map fun m => (m.sec % 2 ^ 64, m.usec % 2 ^ 64)) ∧
      (∀ d, g.typ = some d → st.fs ⟨d, sp, .typ, g.time⟩ = some ([98, 108, 111, 98, 116, 121, 112, 0] ++ g.messages.map fun m =>
        match m.type with | .string => 115 | .json => 106 | .other => 0)) := by
  have hall := (inv_reach hr).all ht
  rw [hg] at hall
  obtain ⟨sp, h⟩ := stored_at hall
  refine ⟨sp, _, _, h.dat, h.off, cDat_eq, ?_, ?_, ?_, ?_⟩
  · rw [cOff_eq]; rfl
  · rw [cOff_eq, ← sum_eq, ← numbers_flat]; rfl
  · intro d hd
    refine ⟨_, h.tim d hd, by rw [cTim_eq]; rfl, ?_⟩
    rw [cTim_eq, ← times_flat, ← numbers_flat]; rfl
  · intro d hd
    rw [h.typ d hd, cTyp_eq]
    congr 2

theorem pieces_starts : ∀ {ds : List (List Nat)} {pre : List Nat}, pieces (pre ++ ds.flatten) (starts pre.length ds) = ds
  | [], pre => rfl
  | [d], pre => by simp [starts, pieces]
  | d :: e :: ds, pre => by
    have h := pieces_starts (ds := e :: ds) (pre := pre ++ d)
    rw [List.length_append, List.append_assoc, ← List.flatten_cons] at h
    rw [starts]
    rw [starts] at h ⊢
    rw [pieces, h]
    congr 1
    rw [List.drop_left]
    simp

theorem starts_lt : ∀ {ds : List (List Nat)} {b x : Nat}, x ∈ starts b ds → x ≤ b + ds.flatten.length
  | [], _, _, h => (nomatch h)
  | d :: ds, b, x, h => by
    rw [List.flatten_cons, List.length_append]
    rcases List.mem_cons.1 h with rfl | h
    · omega
    · have := starts_lt h
      omega

/-- **C85.** The messages of the first opening can be read from its two files, each whole and in their order (unless another opening in the same second overwrote them). -/
theorem read_back_partial {st : St} (hr : Reachable st) (ht : (st.gens.map Gen.time).Nodup) {newer : List Gen} {g : Gen} (hg : st.gens = newer ++ [g]) (hs : g.size < 2 ^ 64) :
    ∃ sp dat off, st.fs ⟨g.dir, sp, .dat, g.time⟩ = some dat ∧ st.fs ⟨g.dir, sp, .off, g.time⟩ = some off ∧ readFiles dat off = some (g.messages.map Msg.data) := by
  obtain ⟨sp, dat, off, h1, h2, h3, h4, h5, -⟩ := files_hold hr ht hg
  refine ⟨sp, dat, off, h1, h2, ?_⟩
  have hid : (starts 8 (g.messages.map Msg.data)).map (· % 2 ^ 64) = starts 8 (g.messages.map Msg.data) := by
    have hsz : g.size = 8 + (g.messages.map Msg.data).flatten.length := by
      rw [Gen.messages, total_flat]
      have := sum_eq (gs := [g])
      simp [sum] at this
      omega
    conv => rhs; rw [← List.map_id (starts 8 (g.messages.map Msg.data))]
    refine List.map_congr_left fun x hx => ?_
    have := starts_lt hx
    exact Nat.mod_eq_of_lt (by omega)
  rw [readFiles, if_pos ⟨by rw [h3]; rfl, h4⟩, h5]
  simp only [List.map_nil, List.sum_nil, Nat.zero_add]
  rw [hid, h3]
  exact congrArg some (pieces_starts (pre := [98, 108, 111, 98, 100, 97, 116, 0]))

theorem pieces_last {dat : List Nat} {o : Nat} : ∀ {xs : List Nat}, (pieces dat (xs ++ [o])).getLast? = some (dat.drop o)
  | [] => rfl
  | [x] => rfl
  | x :: y :: xs => by
    have h := pieces_last (dat := dat) (o := o) (xs := y :: xs)
    rw [List.cons_append] at h ⊢
    rw [List.cons_append, pieces, List.getLast?_cons, h]
    rfl

/-- **C85 is false** of every later opening: if its last message is not empty, what is read from its files is not what was written. -/
theorem later_defect {st : St} (hr : Reachable st) (ht : (st.gens.map Gen.time).Nodup) {newer older : List Gen} {g : Gen} (hg : st.gens = newer ++ g :: older) (hne : older ≠ [])
    {m : Msg} {ms : List Msg} (hm : g.msgs = m :: ms) (hd : m.data ≠ []) (hs : (older.map Gen.size).sum + g.size < 2 ^ 64) :
    ∃ sp dat off, st.fs ⟨g.dir, sp, .dat, g.time⟩ = some dat ∧ st.fs ⟨g.dir, sp, .off, g.time⟩ = some off ∧ readFiles dat off ≠ some (g.messages.map Msg.data) := by
  obtain ⟨sp, dat, off, h1, h2, h3, h4, h5, -⟩ := files_hold hr ht hg
  refine ⟨sp, dat, off, h1, h2, ?_⟩
  rw [readFiles, if_pos ⟨by rw [h3]; rfl, h4⟩, h5]
  intro hh
  have hh := Option.some.inj hh
  have hmsg : g.messages.map Msg.data = ms.reverse.map Msg.data ++ [m.data] := by simp [Gen.messages, hm]
  have hlast := congrArg List.getLast? hh
  rw [hmsg, starts_append, List.map_append, List.map_cons, List.map_nil, pieces_last, List.getLast?_concat] at hlast
  have hlen := congrArg List.length (Option.some.inj hlast)
  have hsz : g.size = 8 + (ms.reverse.map Msg.data).flatten.length + m.data.length := by
    rw [total_flat]
    have := sum_eq (gs := [g])
    simp [sum, hm, total] at this
    omega
  rw [Nat.mod_eq_of_lt (by omega), List.length_drop, h3, hmsg] at hlen
  simp only [List.flatten_append, List.length_append, List.flatten_cons, List.flatten_nil, List.length_cons, List.length_nil] at hlen
  have hpos : 8 ≤ (older.map Gen.size).sum := by
    cases older with
    | nil => exact absurd rfl hne
    | cons o os => simp [Gen.size]; omega
  have : 0 < m.data.length := List.length_pos_iff.2 hd
  omega

/-! ### no message is lost -/

/-- every command that names the stream has a path and a container, and the plugin is not unloaded -/
def Proper : Act → Prop
  | .config named dir _ _ _ => named = true → dir ≠ none
  | .message _ _ _ => True
  | .term => False

structure Kept (st : St) : Prop where
  inv : Inv st
  going : st.closing = false
  all : st.gens.flatMap Gen.msgs = st.sent
  sd : ∀ sd, st.sd = some sd → (sd.ws = .new ∨ sd.ws = .opened) ∧ (sd.subscribed = true → sd.ws = .new → sd.main ≠ none)

theorem kept_config {st : St} (h : Kept st) {named : Bool} {dir : Option Nat} {ti ty sp : Bool} (hp : named = true → dir ≠ none) : Kept (config st named dir ti ty sp) := by
  refine ⟨inv_config h.inv _ _ _ _ _, ?_, ?_, ?_⟩
  · unfold config
    rw [if_neg (by simp [h.going])]
    cases named <;> cases dir <;> dsimp only <;> split <;> first | exact h.going | skip
    all_goals exact h.going
  · unfold config
    rw [if_neg (by simp [h.going])]
    cases named <;> cases dir <;> dsimp only <;> split <;> first | exact h.all | skip
    all_goals exact h.all
  · intro sd'
    unfold config
    rw [if_neg (by simp [h.going])]
    cases dir with
    | none =>
      have hn : ¬ named = true := fun e => hp e rfl
      dsimp only
      rw [if_neg hn]
      exact h.sd sd'
    | some d =>
      cases named with
      | true =>
        intro hs
        dsimp only at hs
        rw [if_pos rfl] at hs
        dsimp only at hs
        have hw : ∀ o, (addStream o).ws = .reopen ∨ (addStream o).ws = .new := by
          intro o; cases o with
          | none => exact .inr rfl
          | some x => exact .inl rfl
        rcases hw st.sd with hw | hw
        · rw [if_pos hw] at hs
          have hrw : (resetPaths sp st.fs (addStream st.sd)).2.ws = .new := by
            unfold resetPaths; split <;> rfl
          rw [if_pos hrw] at hs
          cases hs
          exact ⟨.inl hrw, fun _ _ h => (nomatch h)⟩
        · have hne : ¬ (addStream st.sd).ws = .reopen := by rw [hw]; decide
          rw [if_neg hne, if_pos hw] at hs
          cases hs
          exact ⟨.inl hw, fun _ _ h => (nomatch h)⟩
      | false =>
        dsimp only
        rw [if_neg (by simp)]
        cases hs : st.sd with
        | none => intro h; cases h
        | some sd =>
          intro h1
          dsimp only at h1
          obtain ⟨hw, hm⟩ := h.sd sd hs
          have hr : sd.ws ≠ .reopen := by
            intro e; rw [e] at hw; rcases hw with hw | hw <;> cases hw
          rw [if_neg hr] at h1
          dsimp only at h1
          rcases hw with hw | hw
          · rw [if_pos hw] at h1
            cases h1
            exact ⟨.inl hw, fun _ _ h => (nomatch h)⟩
          · rw [if_neg (by rw [hw]; exact fun h => (nomatch h))] at h1
            cases h1
            exact ⟨.inr hw, hm⟩

theorem kept_store {st : St} {sd : Sd} (hi : Inv st) (hg : st.closing = false) (hs : st.sd = some sd) (ho : sd.ws = .opened) {t : Nat} (ht : sd.time = some t) (m : Msg) (w : Nat)
    (ha : { m with data := m.data.take w } :: st.gens.flatMap Gen.msgs = st.sent) : Kept (store st sd t m w).1 := by
  refine ⟨inv_store hi hs ho ht m w, hg, ?_, ?_⟩
  · obtain ⟨g, gs, h1, -⟩ := (hi.sd sd hs).cur t ht
    unfold store
    dsimp only
    rw [← ha, h1]
    simp [record]
  · intro sd' h
    cases h
    exact ⟨.inr ho, fun _ h => by rw [show ({ sd with offset := sd.offset + (m.data.take w).length } : Sd).ws = sd.ws from rfl, ho] at h; cases h⟩

theorem kept_message {st : St} (h : Kept st) (m : Msg) (now w : Nat) : Kept (message st m now w).1 := by
  unfold message
  cases hs : st.sd with
  | none => exact h
  | some sd =>
    dsimp only
    split
    · exact h
    · rename_i hsub
      have hsub : sd.subscribed = true := by simpa using hsub
      obtain ⟨hw, hm⟩ := h.sd sd hs
      have hi : Inv (arrive st sd m now w) := by
        unfold arrive
        dsimp only
        split
        · exact inv_open h.inv hs _ _
        · exact ⟨h.inv.none, fun sd hsd => ⟨(h.inv.sd sd hsd).clock, (h.inv.sd sd hsd).fresh, (h.inv.sd sd hsd).cur, (h.inv.sd sd hsd).offset⟩, h.inv.all⟩
      have ha : (arrive st sd m now w).closing = false ∧ { m with data := m.data.take w } :: (arrive st sd m now w).gens.flatMap Gen.msgs = (arrive st sd m now w).sent ∧
          ∃ sd', (arrive st sd m now w).sd = some sd' ∧ sd'.ws = .opened := by
        unfold arrive
        rcases hw with hw | hw
        · rw [if_pos hw]
          unfold openFiles
          cases hd : sd.main with
          | none => exact absurd hd (hm hsub hw)
          | some d =>
            refine ⟨h.going, ?_, _, rfl, rfl⟩
            dsimp only
            rw [List.flatMap_cons, h.all]
            rfl
        · rw [if_neg (by rw [hw]; exact fun h => (nomatch h))]
          exact ⟨h.going, by dsimp only; rw [h.all], sd, hs, hw⟩
      obtain ⟨a1, a2, sd', a3, a4⟩ := ha
      generalize arrive st sd m now w = st1 at hi a1 a2 a3 ⊢
      rw [a3]
      dsimp only
      rw [if_pos a4]
      cases ht : sd'.time with
      | none => exact absurd ht ((hi.sd sd' a3).clock a4)
      | some t => exact kept_store hi a1 a3 a4 ht m w a2

/-- **C85.** As long as every command that names the stream is complete, and until the plugin is unloaded, each message that the writer gets is written, as far as the
disk takes it, in the order in which they came. -/
theorem all_written_partial {as : List Act} (h : ∀ a ∈ as, Proper a) : (run init as).gens.flatMap Gen.msgs = (run init as).sent := by
  have go : ∀ (as : List Act) (st : St), Kept st → (∀ a ∈ as, Proper a) → Kept (run st as) := by
    intro as
    induction as with
    | nil => intro st hk _; exact hk
    | cons a as ih =>
      intro st hk hp
      refine ih (step st a) ?_ fun x hx => hp x (by simp [hx])
      have ha := hp a (by simp)
      cases a with
      | config n d ti ty s => exact kept_config hk ha
      | message m now w => exact kept_message hk m now w
      | term => exact ha.elim
  exact (go as init ⟨inv_init, rfl, rfl, fun _ h => (nomatch h)⟩ h).all

/-- the message of an action, as far as the disk takes it -/
def msgOf : Act → Option Msg
  | .message m _ w => some { m with data := m.data.take w }
  | _ => none

def Hears (st : St) : Prop := st.closing = false ∧ ∃ sd, st.sd = some sd ∧ sd.subscribed = true

theorem hears_message {st : St} (h : Hears st) (m : Msg) (now w : Nat) :
    Hears (message st m now w).1 ∧ (message st m now w).1.sent = { m with data := m.data.take w } :: st.sent := by
  obtain ⟨hc, sd, hs, hb⟩ := h
  have harr : (arrive st sd m now w).closing = false ∧ (arrive st sd m now w).sent = { m with data := m.data.take w } :: st.sent ∧
      ∃ sd', (arrive st sd m now w).sd = some sd' ∧ sd'.subscribed = true := by
    unfold arrive
    dsimp only
    split
    · unfold openFiles
      split
      · exact ⟨hc, rfl, _, rfl, hb⟩
      · exact ⟨hc, rfl, _, rfl, hb⟩
    · exact ⟨hc, rfl, sd, hs, hb⟩
  obtain ⟨a1, a2, sd', a3, a4⟩ := harr
  unfold message
  rw [hs]
  dsimp only
  rw [if_neg (by simp [hb])]
  generalize arrive st sd m now w = st1 at a1 a2 a3 ⊢
  rw [a3]
  dsimp only
  split
  · split
    · exact ⟨⟨a1, sd', a3, a4⟩, a2⟩
    · exact ⟨⟨a1, _, rfl, a4⟩, a2⟩
  · exact ⟨⟨a1, sd', a3, a4⟩, a2⟩

theorem resetPaths_sub {sp : Bool} {fs : Files} {sd : Sd} : (resetPaths sp fs sd).2.subscribed = sd.subscribed := by
  unfold resetPaths; split <;> rfl

theorem sub_of {d : Nat} {ti ty : Bool} {sd : Sd} (h : sd.subscribed = true) : (if sd.ws = .new then setPaths d ti ty sd else sd).subscribed = true := by
  split
  · rfl
  · exact h

theorem hears_config {st : St} (h : Hears st) (named : Bool) (dir : Option Nat) (ti ty sp : Bool) :
    Hears (config st named dir ti ty sp) ∧ (config st named dir ti ty sp).sent = st.sent := by
  obtain ⟨hc, sd, hs, hb⟩ := h
  unfold config
  rw [if_neg (by simp [hc])]
  have key : ∀ x : Sd, x.subscribed = true → (if x.ws = .reopen then resetPaths sp st.fs x else (st.fs, x)).2.subscribed = true := by
    intro x hx
    split
    · rw [resetPaths_sub]; exact hx
    · exact hx
  cases named <;> cases dir <;> dsimp only
  · exact ⟨⟨hc, sd, hs, hb⟩, rfl⟩
  · rw [if_neg (by simp), hs]
    exact ⟨⟨hc, _, rfl, sub_of (key sd hb)⟩, rfl⟩
  · rw [if_pos rfl, hs]
    exact ⟨⟨hc, _, rfl, hb⟩, rfl⟩
  · rw [if_pos rfl, hs]
    exact ⟨⟨hc, _, rfl, sub_of (key { sd with ws := .reopen } hb)⟩, rfl⟩

theorem hears_named {st : St} (hc : st.closing = false) (d : Nat) (ti ty sp : Bool) :
    Hears (config st true (some d) ti ty sp) ∧ (config st true (some d) ti ty sp).sent = st.sent := by
  unfold config
  rw [if_neg (by simp [hc])]
  dsimp only
  rw [if_pos rfl]
  refine ⟨⟨hc, _, rfl, ?_⟩, rfl⟩
  dsimp only
  cases hs : st.sd with
  | none => rfl
  | some sd =>
    rw [if_pos (show (addStream (some sd)).ws = .reopen from rfl)]
    have : (resetPaths sp st.fs (addStream (some sd))).2.ws = .new := by unfold resetPaths; split <;> rfl
    rw [if_pos this]
    rfl

/-- **C85.** From the first complete command that names the stream until the plugin is unloaded, the writer gets every message of the stream. -/
theorem all_heard {st : St} (hc : st.closing = false) {d : Nat} {ti ty sp : Bool} {as : List Act} (h : Act.term ∉ as) :
    (run (config st true (some d) ti ty sp) as).sent = (as.filterMap msgOf).reverse ++ st.sent := by
  have go : ∀ (as : List Act) (st : St), Hears st → Act.term ∉ as → (run st as).sent = (as.filterMap msgOf).reverse ++ st.sent := by
    intro as
    induction as with
    | nil => intro st _ _; rfl
    | cons a as ih =>
      intro st hh hn
      simp only [List.mem_cons, not_or] at hn
      have hrun : run st (a :: as) = run (step st a) as := rfl
      rw [hrun]
      cases a with
      | config n d ti ty s =>
        obtain ⟨b1, b2⟩ := hears_config hh n d ti ty s
        rw [show step st (Act.config n d ti ty s) = config st n d ti ty s from rfl, ih _ b1 hn.2]
        show _ ++ (config st n d ti ty s).sent = _
        rw [b2]
        rfl
      | message m now w =>
        obtain ⟨b1, b2⟩ := hears_message hh m now w
        rw [show step st (Act.message m now w) = (message st m now w).1 from rfl, ih _ b1 hn.2]
        show _ ++ (message st m now w).1.sent = _
        rw [b2]
        simp [msgOf, List.filterMap_cons]
      | term => exact absurd rfl hn.1
  obtain ⟨b1, b2⟩ := hears_named hc d ti ty sp
  rw [go as _ b1 h, b2]

def ab : Msg := ⟨[97, 98], .string, 100, 5⟩
def cd : Msg := ⟨[99, 100, 101], .json, 200, 6⟩

/-- **C85 is false** after a command that names the stream without a path: its messages are dropped. -/
theorem dropped_defect : ∃ st, Reachable st ∧ st.sent = [cd, ab] ∧ st.gens.flatMap Gen.msgs = [ab] :=
  ⟨run init [.config true (some 1) false false false, .message ab 100 2, .config true none false false false, .message cd 200 3], ⟨_, rfl⟩, by decide, by decide⟩

/-- **C85 is false** of two openings in the same second: the messages of the first are gone. -/
theorem second_defect : ∃ st, Reachable st ∧ st.gens.flatMap Gen.msgs = [cd, ab] ∧
    ∀ sp, st.fs ⟨1, sp, .dat, 100⟩ = none ∨ st.fs ⟨1, sp, .dat, 100⟩ = some [98, 108, 111, 98, 100, 97, 116, 0, 99, 100, 101] :=
  ⟨run init [.config true (some 1) false false false, .message ab 100 2, .config true (some 1) false false false, .message cd 100 3], ⟨_, rfl⟩, by decide,
    fun sp => by cases sp <;> decide⟩

/-- **C85 is false** of the result of the writer's function: it is the number of bytes, and not 0, so that each message that was written counts as refused
(see `StreamStat`). -/
theorem result_defect {st : St} {sd : Sd} {m : Msg} {now w t : Nat} (hs : st.sd = some sd) (hb : sd.subscribed = true) (ho : sd.ws = .opened) (ht : sd.time = some t)
    (hw : m.data.length ≤ w) : (message st m now w).2 = m.data.length := by
  have harr : (arrive st sd m now w).sd = some sd := by
    unfold arrive
    rw [if_neg (by rw [ho]; exact fun h => (nomatch h))]
    exact hs
  unfold message
  rw [hs]
  dsimp only
  rw [if_neg (by simp [hb]), harr]
  dsimp only
  rw [if_pos ho, ht]
  simp [store]
  omega

/-- **C85 is false** of options that are taken back before the first message: times are written though they are no longer asked for, and to the directory of before. -/
theorem stale_defect : ∃ st, Reachable st ∧ st.fs ⟨2, false, .dat, 100⟩ ≠ none ∧ st.fs ⟨1, false, .tim, 100⟩ ≠ none :=
  ⟨run init [.config true (some 1) true false false, .config true (some 2) false false false, .message ab 100 2], ⟨_, rfl⟩, by decide, by decide⟩

/-- two openings, one of them moved to the spool directory, with times and types -/
def story : St :=
  run init [.config true (some 1) true true false, .message ab 100 2, .message cd 101 3, .config true (some 2) true false true, .message cd 300 2]

example : story.gens.map Gen.time = [300, 100] ∧ story.gens.map (fun g => g.messages.map Msg.data) = [[[99, 100]], [[97, 98], [99, 100, 101]]] := by decide

example : story.fs ⟨1, true, .dat, 100⟩ = some [98, 108, 111, 98, 100, 97, 116, 0, 97, 98, 99, 100, 101] ∧
    story.fs ⟨1, true, .typ, 100⟩ = some [98, 108, 111, 98, 116, 121, 112, 0, 115, 106] ∧
    story.fs ⟨1, true, .off, 100⟩ = some [98, 108, 111, 98, 111, 102, 102, 0, 8, 0, 0, 0, 0, 0, 0, 0, 10, 0, 0, 0, 0, 0, 0, 0] ∧
    story.fs ⟨2, false, .off, 300⟩ = some [98, 108, 111, 98, 111, 102, 102, 0, 21, 0, 0, 0, 0, 0, 0, 0] ∧ story.fs ⟨2, false, .typ, 300⟩ = none := by decide

example : Reachable story ∧ (story.gens.map Gen.time).Nodup ∧ (∃ a b, story.gens = [a, b] ∧ b.size < 2 ^ 64 ∧ a.msgs = [{ cd with data := [99, 100] }] ∧ b.size + a.size < 2 ^ 64) :=
  ⟨⟨_, rfl⟩, by decide, _, _, rfl, by decide, rfl, by decide⟩

example : ∀ a ∈ [Act.config true (some 1) true true false, .message ab 100 2, .config false none false false true, .config true (some 2) true false true, .message cd 300 2], Proper a := by
  simp [Proper]

example : init.closing = false ∧ Act.term ∉ [Act.message ab 100 2, .config true none false false false, .message cd 200 3] ∧
    (run (config init true (some 1) false false false) [Act.message ab 100 2, .config true none false false false, .message cd 200 3]).sent = [cd, ab] :=
  ⟨rfl, by simp, by decide⟩

end Verif.BlobFile
