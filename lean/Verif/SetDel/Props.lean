import Verif.SetDel.Proofs

/-! # C73: deletion of a set that peers have looked up -/

namespace Verif.SetDel

/-! ## Histories without the cleaning thread, for the examples -/

def plain : Ev → Bool
  | .cancelNotify _ => false
  | .reap => false
  | _ => true

theorem legal_plain {to : Nat} {w : W} {e : Ev} (h : plain e = true) : Legal to w e := by
  cases e <;> first | exact trivial | exact nomatch h

theorem run_plain {to : Nat} : ∀ (es : List Ev) {w w' : W}, Run to w → es.all plain = true → runs to w es = .ok w' → Run to w'
  | [], w, w', hr, _, h => by
    have : w = w' := Res.ok.inj h
    exact this ▸ hr
  | e :: es, w, w', hr, ha, h => by
    have ha : plain e = true ∧ es.all plain = true := by simpa using ha
    unfold runs at h
    cases hs : step to w e with
    | ok w1 => rw [hs] at h; exact run_plain es (hr.step (legal_plain ha.1) hs) ha.2 h
    | crash => rw [hs] at h; exact nomatch h
    | hang => rw [hs] at h; exact nomatch h

/-! ## Memory -/

/-- The set is never used after it was given back, and no thread stays in a loop with the lock held.
Missing, and false: see the defects below for steps that are not `Legal`. -/
theorem setdel_safe_partial {to : Nat} {w : W} (h : Run to w) (e : Ev) (hl : Legal to w e) : ∃ w', step to w e = .ok w' :=
  (inv_step (inv_run h) e hl).imp fun _ h => h.1

/-- The memory that a peer reads is there as long as the peer is connected and has not answered the notice of the
deletion. -/
theorem setdel_no_early_free_partial {to : Nat} {w : W} (h : Run to w) (hf : w.freed = true) {c : C} (hc : c ∈ w.conns)
    (hup : c.net = .up) (hl : c.looked = true) : c.answered = true :=
  (((inv_run h).ok c hc).free hf).2.2.2.2 hup hl

/-- It is there until the deletion is done and the program has given back its own references. -/
theorem setdel_free_after_partial {to : Nat} {w : W} (h : Run to w) (hf : w.freed = true) :
    w.del ≠ none ∧ w.ended = true ∧ w.users = 0 :=
  have i := inv_run h
  have e := i.free hf
  ⟨i.ended e.2, e.2, e.1⟩

/-- It is given back: when the deletion is done, the program has given back its references, and on every
connection no lookup is under way, the set is not listed, no notice waits for its answer, and no reference was lost. -/
theorem setdel_released_partial {to : Nat} {w : W} (h : Run to w) (he : w.ended = true) (hu : w.users = 0)
    (hc : ∀ c ∈ w.conns, c.found = false ∧ c.coll = false ∧ c.ctx = none ∧ c.lost = false) : w.freed = true := by
  have i := inv_run h
  cases hf : w.freed with
  | true => rfl
  | false =>
    have h1 := i.refs hf
    have h2 : total w.conns = 0 := by
      unfold total
      have : ∀ l : List C, (∀ c ∈ l, c.refs = 0) → (l.map C.refs).sum = 0 := by
        intro l
        induction l with
        | nil => intro _; rfl
        | cons a l ih =>
          intro h
          rw [List.map_cons, List.sum_cons, h a (List.mem_cons_self ..), ih fun c hc => h c (List.mem_cons_of_mem _ hc)]
      refine this _ fun c hm => ?_
      obtain ⟨a1, a2, a3, a4⟩ := hc c hm
      have a5 : c.ctxSet = false := by
        have := (i.ok c hm).ctx hf
        cases hh : c.ctxSet with
        | false => rfl
        | true => exact absurd a3 (this.1 hh)
      simp [C.refs, a1, a2, a3, a4, a5, b]
    refine absurd ?_ (i.pos hf)
    rw [h1, he, hu, h2]
    rfl

/-- Nothing of a connection that is finished keeps the set, except a lost reference. -/
theorem setdel_gone {to : Nat} {w : W} (h : Run to w) {c : C} (hc : c ∈ w.conns) (hg : c.net = .gone) :
    c.found = false ∧ c.coll = false ∧ c.ctx = none :=
  have g := ((inv_run h).ok c hc).gone hg
  ⟨g.2.2.2, g.1, g.2.1⟩

/-- When the deletion is older than the timeout, the memory is given back as soon as no connected peer has looked
the set up and no connection is registered for push. -/
theorem setdel_timeout_partial {to : Nat} {w : W} (hd : Due to w)
    (hl : ∀ c ∈ w.conns, c.look = true → c.net ≠ .up) (hp : ∀ c ∈ w.conns, c.push = false) :
    ∃ w', step to w .reap = .ok w' ∧ w'.freed = true := by
  obtain ⟨t, h1, h2, h3⟩ := hd
  have hn : ¬ (w.freed = true ∨ w.now - t < to) := by rw [h3]; intro h; rcases h with h | h; exact nomatch h; omega
  have ha : ¬ (w.conns.any fun c => c.look && decide (c.net = .up)) = true := by
    intro h
    obtain ⟨c, hc, hh⟩ := List.any_eq_true.1 h
    have : c.look = true ∧ c.net = .up := by simpa using hh
    exact hl c hc this.1 this.2
  have hf : w.conns.find? (fun c => c.push) = none := by
    rw [List.find?_eq_none]
    intro c hc; rw [hp c hc]; exact fun e => nomatch e
  simp only [step, h1, if_neg hn, reapSet, if_neg ha, hf]
  exact ⟨_, rfl, rfl⟩

/-- Before the timeout the cleaning thread leaves the set alone. -/
theorem setdel_patience {to : Nat} {w : W} (h : ¬ Due to w) : step to w .reap = .ok w := by
  cases hd : w.del with
  | none => simp only [step, hd]
  | some t =>
    simp only [step, hd]
    rw [if_pos]
    cases hf : w.freed with
    | true => exact .inl rfl
    | false => exact .inr (Nat.lt_of_not_le fun hle => h ⟨t, hd, hle, hf⟩)

/-! ## The notice -/

/-- A program is told at most once over a connection, after the deletion, and only if it asked for changes of the
directory and was connected when the notices were sent. -/
theorem setdel_told {to : Nat} {w : W} (h : Run to w) {c : C} (hc : c ∈ w.conns) :
    c.told ≤ 1 ∧ (0 < c.told → w.del ≠ none ∧ c.due = true) := by
  have ok := (inv_run h).ok c hc
  have hd : 0 < c.told → c.due = true := by
    intro ht
    cases hd : c.due with
    | true => rfl
    | false => have := (ok.before hd).2.1; omega
  refine ⟨ok.once, fun ht => ⟨fun hn => ?_, hd ht⟩⟩
  have := ok.late hn
  rw [hd ht] at this; exact nomatch this

/-- A peer that had to be told has answered, unless the connection was lost, the notice could not be sent, or it is still on
its way. -/
theorem setdel_notice {to : Nat} {w : W} (h : Run to w) {c : C} (hc : c ∈ w.conns) (hd : c.due = true) (hup : c.net = .up) :
    c.failed = true ∨ c.req = true ∨ c.answered = true :=
  ((inv_run h).ok c hc).due hd hup

/-- The deletion is not done before each connection was considered. -/
theorem setdel_all_considered {to : Nat} {w : W} (h : Run to w) (he : w.ended = true) {c : C} (hc : c ∈ w.conns) :
    c.tell = false := by
  have ok := (inv_run h).ok c hc
  cases ht : c.tell with
  | false => rfl
  | true => have := (ok.tell ht).2.1; rw [he] at this; exact nomatch this

/-- The deletion considers each connection that there is. -/
theorem setdel_starts {to : Nat} {w : W} (hd : w.del = none) :
    ∃ w', step to w .del = .ok w' ∧ w'.del = some w.now ∧ w'.conns = w.conns.map fun c => { c with tell := true } := by
  simp only [step, if_pos hd]
  exact ⟨_, rfl, rfl, rfl⟩

/-- To consider a connection is to note the peer as one to be told exactly if it asked for changes of the directory and is
connected; then the notice is sent, unless the sending fails. -/
theorem setdel_considered {to : Nat} {w w' : W} {i : Nat} {sent : Bool} {c : C} (h : Run to w) (hc : w.conns[i]? = some c) (ht : c.tell = true)
    (hs : step to w (.tell i sent) = .ok w') :
    ∃ c', w'.conns[i]? = some c' ∧ c'.tell = false ∧ (c'.due = true ↔ c.dir = true ∧ c.net = .up) ∧
      (c'.due = true → c'.req = sent ∧ c'.failed = !sent) := by
  have inv := inv_run h
  have ok := inv.ok c (List.mem_of_getElem? hc)
  have hb := ok.before (ok.tell ht).2.2
  have hreq : c.req = false := by
    cases hr : c.req with
    | false => rfl
    | true => exact absurd hb.1 (ok.way (.inl hr)).1
  have hf : w.freed = false := by
    cases hf : w.freed with
    | false => rfl
    | true => have := (ok.tell ht).2.1; rw [(inv.free hf).2] at this; exact nomatch this
  have hget : w.get = .ok { w with refs := w.refs + 1 } := by
    unfold W.get
    rw [if_neg (by rw [hf]; exact fun e => nomatch e)]
  simp only [step, hc, if_pos ht, hget] at hs
  by_cases hg : c.dir = true ∧ c.net = .up
  · rw [if_pos hg] at hs
    cases sent with
    | true =>
      simp only [Res.bind, if_true] at hs
      rw [← Res.ok.inj hs]
      exact ⟨_, get_modify hc, rfl, ⟨fun _ => hg, fun _ => rfl⟩, fun _ => ⟨rfl, hb.2.2.2.1⟩⟩
    | false =>
      simp only [Res.bind, Bool.false_eq_true, if_false] at hs
      unfold W.put at hs
      rw [if_neg (by show ¬ w.freed = true; rw [hf]; exact fun e => nomatch e)] at hs
      rw [← Res.ok.inj hs]
      exact ⟨_, get_modify hc, rfl, ⟨fun _ => hg, fun _ => rfl⟩, fun _ => ⟨hreq, rfl⟩⟩
  · rw [if_neg hg] at hs
    rw [← Res.ok.inj hs]
    refine ⟨_, get_modify hc, rfl, ⟨fun hd => ?_, fun hh => absurd hh hg⟩, fun hd => ?_⟩
    · exact absurd ((ok.tell ht).2.2.symm.trans hd) (fun e => nomatch e)
    · exact absurd ((ok.tell ht).2.2.symm.trans hd) (fun e => nomatch e)

/-! ### The program is told, when each process has one connection -/

def key (c : C) : Nat × Nat × Bool := (c.peer, c.told, c.answered)

theorem map_key (f : C → C) (hf : ∀ c, key (f c) = key c) : ∀ (l : List C) (i : Nat), (l.modify i f).map key = l.map key
  | [], i => by simp
  | a :: l, 0 => by simp [hf]
  | a :: l, i + 1 => by simp [map_key f hf l i]

theorem put_conns {w w' : W} (h : w.put = .ok w') : w'.conns = w.conns := by
  unfold W.put at h
  split at h
  · exact nomatch h
  · rw [← Res.ok.inj h]

theorem get_conns {w w' : W} (h : w.get = .ok w') : w'.conns = w.conns := by
  unfold W.get at h
  split at h
  · exact nomatch h
  · rw [← Res.ok.inj h]

theorem bind_ok {r : Res} {f : W → Res} {w' : W} (h : r.bind f = .ok w') : ∃ w, r = .ok w ∧ f w = .ok w' := by
  cases r with
  | ok w => exact ⟨w, rfl, h⟩
  | crash => exact nomatch h
  | hang => exact nomatch h

theorem enColl_key {w w' : W} {i : Nat} {c : C} (h : enColl w i c = .ok w') : w'.conns.map key = w.conns.map key := by
  unfold enColl at h
  split at h
  · rw [← Res.ok.inj h]
  · obtain ⟨w1, h1, h2⟩ := bind_ok h
    rw [← Res.ok.inj h2]
    show (w1.conns.modify i _).map key = _
    rw [map_key (fun c => { c with coll := true }) (fun _ => rfl), get_conns h1]

theorem step_key {to : Nat} {w w' : W} {e : Ev} (hs : step to w e = .ok w') (h1 : ∀ p, e ≠ .connect p) (h2 : ∀ i, e ≠ .recvReq i) :
    w'.conns.map key = w.conns.map key := by
  cases e with
  | connect p => exact absurd rfl (h1 p)
  | recvReq i => exact absurd rfl (h2 i)
  | dir i on =>
    simp only [step] at hs
    split at hs
    · split at hs
      · rw [← Res.ok.inj hs]; apply map_key; intro _; rfl
      · rw [← Res.ok.inj hs]
    · rw [← Res.ok.inj hs]
  | find i =>
    simp only [step] at hs
    split at hs
    · split at hs
      · obtain ⟨w1, a, c⟩ := bind_ok hs
        rw [← Res.ok.inj c, ← get_conns a]; apply map_key; intro _; rfl
      · rw [← Res.ok.inj hs]
    · rw [← Res.ok.inj hs]
  | enlist i =>
    simp only [step] at hs
    split at hs
    · split at hs
      · split at hs
        · obtain ⟨w1, a, c⟩ := bind_ok hs
          rw [put_conns c]
          have : w1.conns.map key = w.conns.map key := by
            split at a
            · rw [← Res.ok.inj a]
            · rw [enColl_key a]; apply map_key; intro _; rfl
          rw [← this]
          apply map_key; intro _; rfl
        · rw [put_conns hs]; apply map_key; intro _; rfl
      · rw [← Res.ok.inj hs]
    · rw [← Res.ok.inj hs]
  | notify i =>
    simp only [step] at hs
    split at hs
    · split at hs
      · rw [enColl_key hs]; apply map_key; intro _; rfl
      · rw [← Res.ok.inj hs]
    · rw [← Res.ok.inj hs]
  | cancelNotify i =>
    simp only [step] at hs
    split at hs
    · split at hs
      · rw [← Res.ok.inj hs]; apply map_key; intro _; rfl
      · rw [← Res.ok.inj hs]
    · rw [← Res.ok.inj hs]
  | regPush i =>
    simp only [step] at hs
    split at hs
    · split at hs
      · rw [enColl_key hs]; apply map_key; intro _; rfl
      · rw [← Res.ok.inj hs]
    · rw [← Res.ok.inj hs]
  | cancelPush i =>
    simp only [step] at hs
    split at hs
    · split at hs
      · rw [← Res.ok.inj hs]; apply map_key; intro _; rfl
      · rw [← Res.ok.inj hs]
    · rw [← Res.ok.inj hs]
  | userGet =>
    simp only [step] at hs
    split at hs
    · obtain ⟨w1, a, c⟩ := bind_ok hs
      rw [← Res.ok.inj c, ← get_conns a]
    · rw [← Res.ok.inj hs]
  | userPut =>
    simp only [step] at hs
    split at hs
    · rw [← Res.ok.inj hs]
    · rw [put_conns hs]
  | del =>
    simp only [step] at hs
    split at hs
    · rw [← Res.ok.inj hs]
      simp only [List.map_map]
      rfl
    · rw [← Res.ok.inj hs]
  | tell i sent =>
    simp only [step] at hs
    split at hs
    · split at hs
      · split at hs
        · obtain ⟨w1, a, c⟩ := bind_ok hs
          rw [← get_conns a]
          split at c
          · rw [← Res.ok.inj c]; apply map_key; intro _; rfl
          · rw [put_conns c]; apply map_key; intro _; rfl
        · rw [← Res.ok.inj hs]; apply map_key; intro _; rfl
      · rw [← Res.ok.inj hs]
    · rw [← Res.ok.inj hs]
  | delEnd =>
    simp only [step] at hs
    split at hs
    · rw [put_conns hs]
    · rw [← Res.ok.inj hs]
  | peerDrop i =>
    simp only [step] at hs
    rw [← Res.ok.inj hs]; apply map_key; intro _; rfl
  | recvRep i =>
    simp only [step] at hs
    split at hs
    · rename_i c hc
      split at hs
      · obtain ⟨w1, a, d⟩ := bind_ok hs
        obtain ⟨w2, e, g⟩ := bind_ok d
        have ha : w1.conns = w.conns := by
          split at a
          · split at a
            · exact put_conns a
            · exact nomatch a
          · rw [← Res.ok.inj a]
        have hb : w2.conns = w1.conns := by
          split at e
          · exact put_conns e
          · rw [← Res.ok.inj e]
        rw [← Res.ok.inj g, ← ha, ← hb]
        apply map_key; intro _; rfl
      · rw [← Res.ok.inj hs]
    · rw [← Res.ok.inj hs]
  | drop i =>
    simp only [step] at hs
    split at hs
    · split at hs
      · rw [← Res.ok.inj hs]; apply map_key; intro _; rfl
      · rw [← Res.ok.inj hs]
    · rw [← Res.ok.inj hs]
  | disc i =>
    simp only [step] at hs
    split at hs
    · rename_i c hc
      split at hs
      · obtain ⟨w1, a, d⟩ := bind_ok hs
        obtain ⟨w2, e, g⟩ := bind_ok d
        have ha : w1.conns.map key = w.conns.map key := by
          split at a
          · split at a
            · exact nomatch a
            · rw [put_conns a]; apply map_key; intro _; rfl
          · rw [← Res.ok.inj a]
        have hb : w2.conns = w1.conns := by
          split at e
          · exact put_conns e
          · rw [← Res.ok.inj e]
        rw [← Res.ok.inj g, ← ha, ← hb]
        apply map_key; intro _; rfl
      · rw [← Res.ok.inj hs]
    · rw [← Res.ok.inj hs]
  | tick =>
    simp only [step] at hs
    rw [← Res.ok.inj hs]
  | reap =>
    simp only [step] at hs
    split at hs
    · rw [← Res.ok.inj hs]
    · split at hs
      · rw [← Res.ok.inj hs]
      · unfold reapSet at hs
        split at hs
        · rw [← Res.ok.inj hs]
        · split at hs
          · split at hs
            · rw [← Res.ok.inj hs]
            · exact nomatch hs
          · rw [← Res.ok.inj hs]
            simp only [List.map_map]
            apply List.map_congr_left
            intro c _
            simp only [Function.comp]
            split <;> rfl

/-- Each answer is of a program that was told. -/
def Told (l : List (Nat × Nat × Bool)) : Prop := ∀ k ∈ l, k.2.2 = true → k.2.1 = 1

theorem peers_key (l : List C) : l.map (·.peer) = (l.map key).map (·.1) := by
  rw [List.map_map]; rfl

theorem nodup_eq {l : List C} {c d : C} (hn : (l.map (·.peer)).Nodup) (hc : c ∈ l) (hd : d ∈ l) (he : d.peer = c.peer) : d = c := by
  induction l with
  | nil => exact absurd hc (List.not_mem_nil)
  | cons a l ih =>
    rw [List.map_cons, List.nodup_cons] at hn
    rcases List.mem_cons.1 hc with e1 | h1
    · rcases List.mem_cons.1 hd with e2 | h2
      · rw [e1, e2]
      · refine absurd (List.mem_map.2 ⟨d, h2, ?_⟩) hn.1
        rw [he, e1]
    · rcases List.mem_cons.1 hd with e2 | h2
      · refine absurd (List.mem_map.2 ⟨c, h1, ?_⟩) hn.1
        rw [← he, e2]
      · exact ih hn.2 h1 h2

theorem told_run {to : Nat} {w : W} (h : Run to w) : OneEach w → Told (w.conns.map key) := by
  induction h with
  | init => intro _ k hk; exact nomatch hk
  | @step w e w' hr hl hs ih =>
    by_cases h1 : ∃ p, e = .connect p
    · obtain ⟨p, rfl⟩ := h1
      simp only [step] at hs
      rw [← Res.ok.inj hs]
      intro ho k hk
      have ho' : OneEach w := by
        unfold OneEach at ho ⊢
        rw [List.map_append] at ho
        exact (List.nodup_append.1 ho).1
      rw [List.map_append] at hk
      rcases List.mem_append.1 hk with hk | hk
      · exact ih ho' k hk
      · intro ha
        have : k = key (C.new p) := List.mem_singleton.1 hk
        rw [this] at ha
        exact nomatch ha
    · by_cases h2 : ∃ i, e = .recvReq i
      · obtain ⟨i, rfl⟩ := h2
        simp only [step] at hs
        cases hc : w.conns[i]? with
        | none => simp only [hc] at hs; rw [← Res.ok.inj hs]; exact ih
        | some c =>
          simp only [hc] at hs
          split at hs
          · rename_i hg
            rw [← Res.ok.inj hs]
            intro ho k hk ha
            have hpe : ∀ (l : List C) (i : Nat) (f : C → C), (∀ c, (f c).peer = c.peer) → (l.modify i f).map (·.peer) = l.map (·.peer) := by
              intro l
              induction l with
              | nil => intro i f _; simp
              | cons a l ih2 =>
                intro i f hf
                cases i with
                | zero => simp [hf]
                | succ i => simp [ih2 i f hf]
            have ho' : OneEach w := by
              unfold OneEach at ho ⊢
              have ho : ((w.conns.modify i _).map (·.peer)).Nodup := ho
              rw [hpe] at ho
              · exact ho
              · intro _; rfl
            obtain ⟨d, hd, e⟩ := List.mem_map.1 hk
            rcases mem_modify hc hd with e2 | hd
            · have hm := List.mem_of_getElem? hc
              have hn : ¬ (!c.copy && w.conns.any fun d => decide (d.peer = c.peer) && d.copy) = true := by
                intro hx
                rw [Bool.and_eq_true] at hx
                obtain ⟨d, hd, hh⟩ := List.any_eq_true.1 hx.2
                have hh : d.peer = c.peer ∧ d.copy = true := by simpa using hh
                rw [nodup_eq ho' hm hd hh.1] at hh
                rw [hh.2] at hx
                exact nomatch hx.1
              rw [← e, e2]
              simp only [key, if_neg hn]
              rw [(((inv_run hr).ok c hm).req hg.1).1]
            · exact ih ho' k (e ▸ List.mem_map_of_mem hd) ha
          · rw [← Res.ok.inj hs]; exact ih
      · have hk := step_key hs (fun p e => h1 ⟨p, e⟩) (fun i e => h2 ⟨i, e⟩)
        intro ho
        have : OneEach w := by
          unfold OneEach at ho ⊢
          rw [peers_key] at ho ⊢
          rw [← hk]; exact ho
        rw [hk]
        exact ih this

/-- When each process has one connection, a peer that has answered told its program, exactly once. -/
theorem setdel_program_told_partial {to : Nat} {w : W} (h : Run to w) (ho : OneEach w) {c : C} (hc : c ∈ w.conns)
    (ha : c.answered = true) : c.told = 1 :=
  told_run h ho (key c) (List.mem_map_of_mem hc) ha

/-! ## Examples: hypotheses are met -/

/-- Two peers look the set up; the first asked for changes of the directory. -/
def hist : List Ev :=
  [.connect 1, .connect 2, .dir 0 true, .find 0, .enlist 0, .find 1, .enlist 1, .userGet, .del, .tell 0 true, .tell 1 true, .delEnd,
   .recvReq 0, .recvRep 0, .userPut]

def after (to : Nat) (es : List Ev) : W := match runs to init es with
  | .ok w => w
  | _ => init

theorem run_hist : Run 2 (after 2 hist) :=
  run_plain hist .init (by decide +kernel) (by decide +kernel)

example : (after 2 hist).freed = false ∧ (after 2 hist).refs = 1 ∧ OneEach (after 2 hist) ∧
    ((after 2 hist).conns.map fun c => (c.due, c.answered, c.told, c.coll)) = [(true, true, 1, false), (false, false, 0, true)] := by
  unfold OneEach; decide +kernel

/-- The second connection is lost: the memory is given back. -/
theorem run_hist2 : Run 2 (after 2 (hist ++ [.drop 1, .disc 1])) :=
  run_plain (hist ++ [.drop 1, .disc 1]) .init (by decide +kernel) (by decide +kernel)

example : (after 2 (hist ++ [.drop 1, .disc 1])).freed = true ∧
    (∀ c ∈ (after 2 (hist ++ [.drop 1, .disc 1])).conns, c.found = false ∧ c.coll = false ∧ c.ctx = none ∧ c.lost = false) ∧
    (∃ c ∈ (after 2 (hist ++ [.drop 1, .disc 1])).conns, c.net = .up ∧ c.looked = true ∧ c.answered = true) := by
  decide +kernel

/-- A peer was lost while its answer was awaited, and the timeout has passed. -/
def histT : List Ev :=
  [.connect 1, .dir 0 true, .find 0, .enlist 0, .del, .tell 0 true, .delEnd, .drop 0, .disc 0, .tick, .tick]

example : Run 2 (after 2 histT) := run_plain histT .init (by decide +kernel) (by decide +kernel)

example : Due 2 (after 2 histT) ∧ Calm (after 2 histT) ∧ (after 2 histT).refs = 1 ∧
    (∀ c ∈ (after 2 histT).conns, (c.look = true → c.net ≠ .up) ∧ c.push = false) := by
  refine ⟨⟨0, ?_⟩, ?_, ?_⟩
  · decide +kernel
  · unfold Calm; decide +kernel
  · decide +kernel

/-! ## What the code does not do -/

/-- A peer that asked for changes of the directory, but did not look the set up, answers after the timeout: the set is used
after it was given back. -/
theorem setdel_late_answer_defect :
    runs 1 init [.connect 1, .dir 0 true, .del, .tell 0 true, .delEnd, .tick, .reap, .recvReq 0, .recvRep 0] = .crash := by
  decide +kernel

/-- A peer that looked the set up and cancelled its notifications still reads the memory when it is given back after the
timeout; the loss of that connection then uses the set. -/
theorem setdel_cancel_notify_defect :
    (∃ w, runs 1 init [.connect 1, .find 0, .enlist 0, .cancelNotify 0, .del, .tell 0 true, .delEnd, .tick, .reap] = .ok w ∧
      w.freed = true ∧ (w.conns.map fun c => (c.net, c.looked, c.copy, c.answered)) = [(.up, true, true, false)]) ∧
    runs 1 init [.connect 1, .find 0, .enlist 0, .cancelNotify 0, .del, .tell 0 true, .delEnd, .tick, .reap, .drop 0, .disc 0] = .crash :=
  ⟨⟨after 1 [.connect 1, .find 0, .enlist 0, .cancelNotify 0, .del, .tell 0 true, .delEnd, .tick, .reap], by decide +kernel⟩, by decide +kernel⟩

/-- A connection is lost, the set is given back after the timeout before the loss is handled: the handling uses the set. -/
theorem setdel_loss_race_defect :
    runs 1 init [.connect 1, .find 0, .enlist 0, .del, .tell 0 true, .delEnd, .tick, .drop 0, .reap, .disc 0] = .crash := by
  decide +kernel

/-- The program still has a reference from a lookup by name when the set is given back after the timeout. -/
theorem setdel_user_defect :
    runs 1 init [.userGet, .del, .delEnd, .tick, .reap, .userPut] = .crash := by
  decide +kernel

/-- A peer registered for push is lost before it answers: the cleaning thread stays in a loop with the lock held. -/
theorem setdel_push_loop_defect :
    runs 1 init [.connect 1, .dir 0 true, .find 0, .enlist 0, .regPush 0, .del, .tell 0 true, .delEnd, .drop 0, .disc 0, .tick, .reap] = .hang := by
  decide +kernel

/-- The peer has answered, its connection is finished and the set given back: the transport of the connection is still in the
list of the set, which nobody goes through any more, and is not given back. -/
theorem setdel_transport_kept_defect :
    let w := after 1 [.connect 1, .dir 0 true, .find 0, .enlist 0, .del, .tell 0 true, .delEnd, .recvReq 0, .recvRep 0, .drop 0, .disc 0]
    Run 1 w ∧ w.freed = true ∧ (w.conns.map fun c => (c.net, c.answered, c.released)) = [(.gone, true, false)] :=
  ⟨run_plain [.connect 1, .dir 0 true, .find 0, .enlist 0, .del, .tell 0 true, .delEnd, .recvReq 0, .recvRep 0, .drop 0, .disc 0]
    .init (by decide +kernel) (by decide +kernel), by decide +kernel⟩

theorem reap_stay {to : Nat} {w : W} (h : (w.conns.any fun c => c.look && decide (c.net = .up)) = true) : step to w .reap = .ok w := by
  cases hd : w.del with
  | none => simp only [step, hd]
  | some t =>
    simp only [step, hd]
    split
    · rfl
    · unfold reapSet; rw [if_pos h]

/-- One peer answered and stays connected, another was lost before it answered: the memory is not given back,
whatever the time. -/
theorem setdel_never_released_defect (to n : Nat) :
    ∃ w, runs to init [.connect 1, .connect 2, .dir 0 true, .dir 1 true, .find 0, .enlist 0, .find 1, .enlist 1, .del, .tell 0 true,
        .tell 1 true, .delEnd, .recvReq 0, .recvRep 0, .drop 1, .disc 1] = .ok w ∧
      w.freed = false ∧ w.ended = true ∧ w.users = 0 ∧
      (w.conns.map fun c => (c.net, c.answered, c.coll, c.ctx)) = [(.up, true, false, none), (.gone, false, false, none)] ∧
      step to { w with now := n } .reap = .ok { w with now := n } := by
  refine ⟨_, rfl, rfl, rfl, rfl, rfl, ?_⟩
  exact reap_stay rfl

/-- A process that has two connections, as a rail does: the directory over the first, the lookup over the second.  The
notice is answered but its program is not told, and the set stays. -/
theorem setdel_rail_defect :
    let w := after 1 [.connect 1, .connect 1, .dir 0 true, .find 1, .enlist 1, .del, .tell 0 true, .tell 1 true, .delEnd,
      .recvReq 0, .recvRep 0]
    Run 1 w ∧ w.freed = false ∧ (w.conns.map fun c => (c.answered, c.told, c.copy, c.coll)) = [(true, 0, false, false), (false, 0, true, true)] :=
  ⟨run_plain [.connect 1, .connect 1, .dir 0 true, .find 1, .enlist 1, .del, .tell 0 true, .tell 1 true, .delEnd, .recvReq 0, .recvRep 0]
    .init (by decide +kernel) (by decide +kernel), by decide +kernel⟩

/-- A lookup that found the set before the deletion and shares it afterwards: the peer gets a copy of a deleted set after
it was told of the deletion, and is not told again. -/
theorem setdel_late_lookup_defect :
    let w := after 1 [.connect 1, .dir 0 true, .find 0, .del, .tell 0 true, .delEnd, .recvReq 0, .enlist 0, .recvRep 0]
    Run 1 w ∧ w.freed = false ∧ w.ended = true ∧
      (w.conns.map fun c => (c.answered, c.told, c.copy, c.req, c.coll)) = [(true, 1, true, false, true)] :=
  ⟨run_plain [.connect 1, .dir 0 true, .find 0, .del, .tell 0 true, .delEnd, .recvReq 0, .enlist 0, .recvRep 0]
    .init (by decide +kernel) (by decide +kernel), by decide +kernel⟩

/-- A notice that cannot be sent loses a reference. -/
theorem setdel_lost_reference_defect :
    let w := after 1 [.connect 1, .dir 0 true, .find 0, .enlist 0, .del, .tell 0 false, .delEnd]
    Run 1 w ∧ w.refs = 1 ∧ w.freed = false ∧ w.users = 0 ∧ w.ended = true ∧
      (w.conns.map fun c => (c.found, c.coll, c.ctx, c.told, c.lost)) = [(false, false, none, 0, true)] :=
  ⟨run_plain [.connect 1, .dir 0 true, .find 0, .enlist 0, .del, .tell 0 false, .delEnd]
    .init (by decide +kernel) (by decide +kernel), by decide +kernel⟩

end Verif.SetDel
