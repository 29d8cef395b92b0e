import Verif.JobLabel.Proofs

/-! # C74: samples are labelled with jobs -/

namespace Verif.JobLabel

/-- A history of jobs for the examples: job 7 runs from 10 to 20, job 8 from 30. -/
def twoJobs : List JEv := [.init 7 10, .step 7 (some 3), .task 7, .exit 7 20, .init 8 30, .step 8 (some 4)]

/-- However jobs start and end, no event ends the daemon, and a sample gets the id of the job that was started last, if this job
runs in the second of the sample, and 0 otherwise; with its application id, if that was told, and with 0 for no job. -/
theorem joblabel_id_partial (len : Nat) (hpos : 0 < len) (es : List JEv) (hf : ∀ e ∈ es, Fits e) (t : Nat) :
    ∃ s a, recvAll (config zero len) es = some s ∧
      slotLabel (fun _ => s) t = some ((Hist.all len es).label t, a) ∧
      ((∀ j, (Hist.all len es).last = some j → ¬ j.runs t) → a = 0) ∧
      (∀ j b, (Hist.all len es).last = some j → j.runs t → j.app = some b → a = b) := by
  obtain ⟨s, hs, r⟩ := r_all es (r_config len) hf
  obtain ⟨a, h1, h2, h3⟩ := r_label r hpos t
  refine ⟨s, a, hs, h1, fun hh => h2 ?_, h3⟩
  unfold Hist.all at hh
  cases hl : (es.foldl (Hist.step len) .empty).last with
  | none => rfl
  | some j => simpa using hh j hl

example : (∀ e ∈ twoJobs, Fits e) ∧ (Hist.all 2 twoJobs).label 35 = 8 ∧
    ((recvAll (config zero 2) twoJobs).bind fun s => slotLabel (fun _ => s) 35) = some (8, 4) := by decide +kernel

/-- A sample is labelled only with a job that was started by then and did not end before. -/
theorem joblabel_sound (len : Nat) (hpos : 0 < len) (es : List JEv) (hf : ∀ e ∈ es, Fits e) (t : Nat) (s : Slots) (id a : Nat)
    (hs : recvAll (config zero len) es = some s) (hl : slotLabel (fun _ => s) t = some (id, a)) (hid : id ≠ 0) :
    ∃ pre post ts, es = pre ++ .init id ts :: post ∧ ts ≤ t ∧ ∀ f, exitOf id post = some f → t ≤ f := by
  obtain ⟨s', b, h1, h2, _⟩ := joblabel_id_partial len hpos es hf t
  rw [hs] at h1; have h1 := Option.some.inj h1; subst h1
  rw [hl] at h2
  have h2 : id = _ := (Prod.mk.inj (Option.some.inj h2)).1
  unfold Hist.label at h2
  cases hj : (Hist.all len es).last with
  | none => rw [hj] at h2; exact absurd h2 hid
  | some j =>
    rw [hj] at h2
    simp only at h2
    by_cases hr : j.runs t
    · rw [if_pos hr] at h2
      obtain ⟨pre, post, e1, e2⟩ := last_events es j hj
      rw [h2]
      exact ⟨pre, post, j.start, e1, hr.1, fun f hf => hr.2 f (e2 ▸ hf)⟩
    · rw [if_neg hr] at h2; exact absurd h2 hid

/-- When a job that there was room for is the one started last and runs in the second of a sample, the sample is
labelled with it. -/
theorem joblabel_complete (len : Nat) (pre post : List JEv) (id ts t : Nat)
    (hf : ∀ e ∈ pre ++ .init id ts :: post, Fits e)
    (hroom : (Hist.all len pre).live.length < len) (hnew : ∀ j ∈ (Hist.all len pre).live, j.id ≠ id)
    (hlast : ∀ i u, JEv.init i u ∉ post) (hstart : ts ≤ t) (hrun : ∀ f, exitOf id post = some f → t ≤ f) :
    ∃ s a, recvAll (config zero len) (pre ++ .init id ts :: post) = some s ∧ slotLabel (fun _ => s) t = some (id, a) := by
  obtain ⟨s, a, h1, h2, _⟩ := joblabel_id_partial len (by omega) _ hf t
  refine ⟨s, a, h1, ?_⟩
  rw [h2]
  have hany : (Hist.all len pre).live.any (fun j => j.id == id) = false := by
    rw [List.any_eq_false]
    intro j hj
    simpa using hnew j hj
  have hl : ((Hist.all len pre).step len (.init id ts)).last = some ⟨id, ts, none, none⟩ := by
    simp only [Hist.step, hany, Bool.false_or, decide_eq_false (Nat.not_le.2 hroom), Bool.false_eq_true, if_false]
  obtain ⟨b, hb⟩ := last_after (cap := len) post _ _ hl hlast
  have : (Hist.all len (pre ++ .init id ts :: post)).last = some ⟨id, ts, exitOf id post, b⟩ := by
    unfold Hist.all at hb ⊢
    rw [List.foldl_append, List.foldl_cons, hb]; rfl
  have hr : Job.runs ⟨id, ts, exitOf id post, b⟩ t := ⟨hstart, hrun⟩
  simp only [Hist.label, this, if_pos hr]

example : (Hist.all 2 (twoJobs.take 4)).live.length < 2 ∧ twoJobs = twoJobs.take 4 ++ .init 8 30 :: twoJobs.drop 5 := by decide +kernel

/-- Every job that is followed has a slot of its own, which shows it while it runs. -/
theorem joblabel_slots (len : Nat) (es : List JEv) (hf : ∀ e ∈ es, Fits e) :
    ∃ s, recvAll (config zero len) es = some s ∧ (Hist.all len es).live.length ≤ len ∧ ∃ slot : Nat → Nat,
      (∀ j ∈ (Hist.all len es).live, ∀ i ∈ (Hist.all len es).live, slot j.id = slot i.id → j.id = i.id) ∧
      ∀ j ∈ (Hist.all len es).live, slot j.id < len ∧ s.ids (slot j.id) = j.id ∧ s.starts (slot j.id) = j.start ∧
        s.ends (slot j.id) = 0 ∧ ∀ a, j.app = some a → s.apps (slot j.id) = a := by
  obtain ⟨s, hs, r⟩ := r_all es (r_config len) hf
  have r : R len s (Hist.all len es) := r
  have hll : (Hist.all len es).live.length = s.jobs.length := by
    have := congrArg List.length r.ids; simpa using this.symm
  have key : ∀ j ∈ (Hist.all len es).live, ∀ k, (j.id, k) ∈ s.jobs → (slotOf s j.id).getD 0 = k := by
    intro j _ k hk
    rw [(slotOf_iff r).2 hk]; rfl
  refine ⟨s, hs, by have := r.count; omega, fun id => (slotOf s id).getD 0, ?_, ?_⟩
  · intro j hj i hi e
    obtain ⟨_, m, hm, _⟩ := r.live j hj
    obtain ⟨_, n, hn, _⟩ := r.live i hi
    simp only [key j hj m hm, key i hi n hn] at e
    exact congrArg Prod.fst (slot_inj (List.nodup_append.1 r.nodup).1 hm hn e)
  · intro j hj
    obtain ⟨h0, m, hm, sh⟩ := r.live j hj
    simp only [key j hj m hm]
    refine ⟨r.lt m (List.mem_append_left _ (List.mem_map.2 ⟨_, hm, rfl⟩)), sh.id, sh.start, ?_, sh.app⟩
    rw [sh.fin, h0]; rfl

example : (Hist.all 2 [.init 7 10, .init 8 12, .init 9 13]).live.map (·.id) = [7, 8] := by decide +kernel

/-- Values are read one by one while an event may be handled: wherever the event falls among the reads, the sample
has the id of before the event or that of after it (a start is not in the future). -/
theorem joblabel_during (len : Nat) (hlen : 2 ≤ len) (es : List JEv) (e : JEv) (hf : ∀ d ∈ es ++ [e], Fits d) (t c : Nat)
    (ht : ∀ id ts, e = .init id ts → ts ≤ t) :
    ∃ s s' a, recvAll (config zero len) es = some s ∧ recv s e = some s' ∧
      (slotLabel (switch c s s') t = some ((Hist.all len es).label t, a) ∨
       slotLabel (switch c s s') t = some ((Hist.all len (es ++ [e])).label t, a)) := by
  obtain ⟨s, hs, r⟩ := r_all es (r_config len) (fun d hd => hf d (List.mem_append_left _ hd))
  have hfe := hf e (List.mem_append_right _ (List.mem_singleton.2 rfl))
  obtain ⟨s', hs', r'⟩ := r_recv r e hfe
  have hall : Hist.all len (es ++ [e]) = (es.foldl (Hist.step len) .empty).step len e := by
    unfold Hist.all; rw [List.foldl_append]; rfl
  rw [hall]
  obtain ⟨a0, hb, _⟩ := r_label r (by omega) t
  obtain ⟨a1, ha, _⟩ := r_label r' (by omega) t
  cases e with
  | init id ts =>
    obtain ⟨a, h⟩ := during_init r hlen id ts t c (ht id ts rfl) hfe hs'
    exact ⟨s, s', a, hs, hs', h⟩
  | step id app =>
    rcases during_step t c hs' with h | h
    · exact ⟨s, s', a0, hs, hs', .inl (h.trans hb)⟩
    · exact ⟨s, s', a1, hs, hs', .inr (h.trans ha)⟩
  | exit id ts =>
    rcases during_exit t c hs' with h | h
    · exact ⟨s, s', a0, hs, hs', .inl (h.trans hb)⟩
    · exact ⟨s, s', a1, hs, hs', .inr (h.trans ha)⟩
  | task id =>
    have := Option.some.inj hs'
    subst this
    refine ⟨s, s, a0, hs, rfl, .inl ?_⟩
    have : switch c s s = fun _ => s := by funext k; simp [switch]
    rw [this, hb]; rfl

example : (∀ d ∈ twoJobs ++ [.init 9 40], Fits d) ∧ (Hist.all 2 twoJobs).label 45 = 8 ∧ (Hist.all 2 (twoJobs ++ [.init 9 40])).label 45 = 9 := by
  decide +kernel

/-- Until the application id of a job is told, samples have that of the job that had the slot before. -/
theorem joblabel_app_of_other_job_defect :
    ∃ s, recvAll (config zero 2) (twoJobs ++ [.exit 8 40, .init 9 50]) = some s ∧
      (Hist.all 2 (twoJobs ++ [.exit 8 40, .init 9 50])).last = some ⟨9, 50, none, none⟩ ∧
      slotLabel (fun _ => s) 55 = some (9, 3) := by
  refine ⟨_, rfl, rfl, ?_⟩
  decide +kernel

/-- Two jobs run, the one started later ends: samples are no longer labelled, although the other job runs. -/
theorem joblabel_running_job_unlabelled_defect :
    ∃ s, recvAll (config zero 4) [.init 7 10, .init 8 12, .exit 8 20] = some s ∧
      (Hist.all 4 [.init 7 10, .init 8 12, .exit 8 20]).live = [⟨7, 10, none, none⟩] ∧
      slotLabel (fun _ => s) 30 = some (0, 0) :=
  ⟨_, rfl, by decide +kernel, by decide +kernel⟩

/-- The plugin is stopped and configured again: slots are given twice, and of two jobs that run only one is shown. -/
theorem joblabel_reconfigured_defect :
    ∃ s, recvAll (config (config zero 2) 2) [.init 7 10, .init 8 11, .init 9 12] = some s ∧
      s.jobs = [(7, 0), (8, 1), (9, 0)] ∧ s.ids 0 = 9 ∧ s.ids 1 = 8 := by
  refine ⟨_, rfl, ?_⟩
  decide +kernel

/-- With fewer slots than before, the second job then ends the daemon. -/
theorem joblabel_reconfigured_abort_defect :
    ((recvAll (config zero 4) [.init 7 10, .exit 7 20]).bind fun s => recvAll (config s 2) [.init 8 30, .init 9 31]) = none := by
  decide +kernel

/-- Application ids from 2^31 on are shown as other numbers. -/
theorem joblabel_app_sign_defect : (recvAll (config zero 2) [.init 7 10, .step 7 (some 4294967294)]).map (fun s => s.apps 0) =
    some 18446744073709551614 := by decide +kernel

/-! ## The samplers -/

/-- While the sampler has found no usable job set, its samples are not labelled. -/
theorem joblabel_unused (w : World) (es : List BEv) (w' : World) (x : Base) (h : life w .new es = some (w', x)) (hu : x.use = none) :
    x.job = 0 ∧ x.app = 0 := by
  have : ∀ (es : List BEv) (w : World) (y : Base), (y.use = none → y.job = 0 ∧ y.app = 0) → life w y es = some (w', x) →
      x.use = none → x.job = 0 ∧ x.app = 0 := by
    intro es
    induction es with
    | nil =>
      intro w y hy h hu
      have := (Prod.mk.inj (Option.some.inj h)).2
      exact this ▸ hy (this ▸ hu)
    | cons e es ih =>
      intro w y hy h hu
      cases e with
      | world w2 => exact ih w2 y hy h hu
      | sample ts =>
        simp only [life] at h
        cases hb : begin w y ts with
        | none => rw [hb] at h; exact nomatch h
        | some z =>
          rw [hb] at h
          refine ih w z ?_ h hu
          have hi : (initJob w y).use = none → (initJob w y).job = 0 ∧ (initJob w y).app = 0 := by
            intro hn
            have hyn : y.use = none := by
              unfold initJob at hn
              cases hyu : y.use with
              | none => rfl
              | some k => simp only [hyu] at hn; exact nomatch hn
            have := hy hyn
            unfold initJob
            simp only [hyn]
            split
            · exact this
            · split
              · split <;> exact this
              · split <;> exact this
              · exact this
          intro hz
          unfold begin at hb
          cases hu2 : (initJob w y).use with
          | none =>
            simp only [hu2] at hb
            have := Option.some.inj hb
            exact this ▸ hi hu2
          | some k =>
            simp only [hu2] at hb
            have hkeep : z.use = some k := by
              split at hb
              · split at hb
                · split at hb
                  · rw [Option.map_eq_some_iff] at hb
                    obtain ⟨a, _, e⟩ := hb
                    rw [← e]
                  · rw [← Option.some.inj hb]
                · exact nomatch hb
              · rw [Option.map_eq_some_iff] at hb
                obtain ⟨a, _, e⟩ := hb
                rw [← e]
              · split at hb
                · split at hb
                  · exact nomatch hb
                  · split at hb
                    · split at hb
                      · split at hb
                        · rw [← Option.some.inj hb]
                        · exact nomatch hb
                      · rw [← Option.some.inj hb]
                    · exact nomatch hb
                · rw [← Option.some.inj hb]; exact hu2
            rw [hkeep] at hz; exact nomatch hz
  exact this es w .new (fun _ => ⟨rfl, rfl⟩) h hu

example : (life ⟨fun _ => .plain none none none none, none⟩ .new [.sample 5]).map (·.2) = some .new := rfl

/-- The sampler uses the job set that has the name, or has not yet looked for it. -/
def Current (w : World) (x : Base) (k : Nat) : Prop := w.dir = some k ∧ (x.use = none ∨ x.use = some k)

/-- A set of one job: a sample has its ids, if it runs in the second of the sample, and 0 otherwise. -/
theorem joblabel_plain (w : World) (x : Base) (k ts start fin job app : Nat) (hx : Current w x k)
    (hc : w.content k = .plain (some start) (some fin) (some job) (some app)) (hs : start < 2 ^ 32) (hf : fin < 2 ^ 32) :
    ∃ x', begin w x ts = some x' ∧ x'.use = some k ∧
      (start ≤ ts ∧ (fin = 0 ∨ ts ≤ fin) → x'.job = job ∧ x'.app = app) ∧
      (¬ (start ≤ ts ∧ (fin = 0 ∨ ts ≤ fin)) → x'.job = 0 ∧ x'.app = 0) := by
  have hi : (initJob w x).use = some k := by
    unfold initJob
    rcases hx.2 with h | h
    · simp [h, hx.1, hc]
    · simp [h]
  unfold begin
  simp only [hi, hc, u32_id hs, u32_id hf]
  by_cases hin : start ≤ ts ∧ (fin = 0 ∨ ts ≤ fin)
  · have : inJob ts start fin = true := by simpa [inJob] using hin
    rw [this]
    exact ⟨_, rfl, rfl, fun _ => ⟨rfl, rfl⟩, fun h => absurd hin h⟩
  · have : inJob ts start fin = false := by
      cases hb : inJob ts start fin with
      | false => rfl
      | true => exact absurd (by simpa [inJob] using hb) hin
    rw [this]
    exact ⟨_, rfl, rfl, fun h => absurd h hin, fun _ => ⟨rfl, rfl⟩⟩

/-- A set of slots that has received the events of the jobs: a sample has the id of the job started last, if it
runs. -/
theorem joblabel_slot_sample (w : World) (x : Base) (k ts len : Nat) (hpos : 0 < len) (es : List JEv) (hf : ∀ e ∈ es, Fits e) (hx : Current w x k)
    (hc : ∀ s, recvAll (config zero len) es = some s → w.content k = .slots s) :
    ∃ x', begin w x ts = some x' ∧ x'.job = (Hist.all len es).label ts ∧
      ((∀ j, (Hist.all len es).last = some j → ¬ j.runs ts) → x'.app = 0) ∧
      (∀ j b, (Hist.all len es).last = some j → j.runs ts → j.app = some b → x'.app = b) := by
  obtain ⟨s, a, h1, h2, h3, h4⟩ := joblabel_id_partial len hpos es hf ts
  have hc := hc s h1
  have hi : (initJob w x).use = some k := by
    unfold initJob
    rcases hx.2 with h | h
    · simp [h, hx.1, hc]
    · simp [h]
  unfold begin
  simp only [hi, hc, h2]
  exact ⟨_, rfl, rfl, h3, h4⟩

/-- A list of jobs: a sample has the ids of the last one, if it runs, and 0 otherwise. -/
theorem joblabel_list (w : World) (x : Base) (k ts : Nat) (r : Rec) (recs : List Rec) (hx : Current w x k)
    (hc : w.content k = .jobs true true true true (recs ++ [r])) (hs : r.start < 2 ^ 32) (hf : r.fin < 2 ^ 32) :
    ∃ x', begin w x ts = some x' ∧ x'.use = some k ∧
      (r.start ≤ ts ∧ (r.fin = 0 ∨ ts ≤ r.fin) → x'.job = r.job ∧ x'.app = r.app) ∧
      (¬ (r.start ≤ ts ∧ (r.fin = 0 ∨ ts ≤ r.fin)) → x'.job = 0 ∧ x'.app = 0) := by
  have hi : (initJob w x).use = some k := by
    unfold initJob
    rcases hx.2 with h | h
    · simp [h, hx.1, hc]
    · simp [h]
  unfold begin
  simp only [hi, hc, u32_id hs, u32_id hf, if_true, List.getLast?_append, List.getLast?_singleton, Option.some_or, Bool.and_self]
  by_cases hin : r.start ≤ ts ∧ (r.fin = 0 ∨ ts ≤ r.fin)
  · have : inJob ts r.start r.fin = true := by simpa [inJob] using hin
    rw [this]
    exact ⟨_, rfl, rfl, fun _ => ⟨rfl, rfl⟩, fun h => absurd hin h⟩
  · have : inJob ts r.start r.fin = false := by
      cases hb : inJob ts r.start r.fin with
      | false => rfl
      | true => exact absurd (by simpa [inJob] using hb) hin
    rw [this]
    exact ⟨_, rfl, rfl, fun h => absurd h hin, fun _ => ⟨rfl, rfl⟩⟩

example : Current ⟨fun _ => .plain (some 10) (some 0) (some 7) (some 3), some 0⟩ .new 0 ∧
    begin ⟨fun _ => .plain (some 10) (some 0) (some 7) (some 3), some 0⟩ .new 12 = some ⟨some 0, 0, 7, 3⟩ :=
  ⟨⟨rfl, .inl rfl⟩, by decide +kernel⟩

example : begin ⟨fun _ => .jobs true true true true [⟨1, 2, 3, 4⟩, ⟨10, 20, 7, 5⟩], some 0⟩ ⟨some 0, 0, 9, 9⟩ 15 = some ⟨some 0, 0, 7, 5⟩ := by
  decide +kernel

/-- A sample while there is no set of that name, or one of a single job without start, end or id, or a list without jobs:
the sampler goes on unlabelled, and looks again next time. -/
theorem joblabel_unusable (w : World) (x : Base) (ts : Nat) (hx : x.use = none)
    (hw : ∀ k, w.dir = some k → (∃ app start fin job, w.content k = .plain start fin job app ∧ (start = none ∨ fin = none ∨ job = none)) ∨
      ∃ a b c d, w.content k = .jobs a b c d []) :
    ∃ x', begin w x ts = some x' ∧ x'.use = none ∧ x'.job = x.job ∧ x'.app = x.app := by
  have hi : (initJob w x).use = none ∧ (initJob w x).job = x.job ∧ (initJob w x).app = x.app := by
    unfold initJob
    simp only [hx]
    cases hd : w.dir with
    | none => exact ⟨hx, rfl, rfl⟩
    | some k =>
      rcases hw k hd with ⟨app, start, fin, job, hc, hn⟩ | ⟨a, b, c, d, hc⟩
      · have : (start.isSome && fin.isSome && job.isSome) = false := by
          rcases hn with h | h | h <;> simp [h]
        simp [hc, this]
      · simp [hc]
  unfold begin
  simp only [hi.1]
  exact ⟨_, rfl, hi⟩

example : begin ⟨fun _ => .plain (some 1) none (some 1) none, some 0⟩ .new 12 = some ⟨none, 1, 0, 0⟩ := by decide +kernel

/-- A sample does not end the daemon when the sets that are there are good. -/
theorem joblabel_no_crash_partial (w : World) (x : Base) (ts : Nat) (hc : ∀ k, (w.content k).good) : begin w x ts ≠ none := by
  unfold begin
  simp only
  split
  · exact nofun
  · rename_i k _
    have := hc k
    split
    · rename_i start fin job app he
      rw [he] at this
      obtain ⟨h1, h2, h3, h4⟩ := this
      obtain ⟨a, rfl⟩ := Option.isSome_iff_exists.1 h1
      obtain ⟨b, rfl⟩ := Option.isSome_iff_exists.1 h2
      obtain ⟨c, rfl⟩ := Option.isSome_iff_exists.1 h3
      obtain ⟨d, rfl⟩ := Option.isSome_iff_exists.1 h4
      simp only
      split <;> exact nofun
    · rename_i s he
      rw [he] at this
      obtain ⟨h1, h2⟩ := this
      unfold slotLabel
      simp only [if_neg (Nat.not_le.2 h1)]
      split
      · exact nofun
      · rename_i hneg
        have h3 : ¬ s.len ≤ (s.list s.tail).toNat := by omega
        simp only [if_neg h3]
        split <;> exact nofun
    · rename_i a b c d recs he
      rw [he] at this
      obtain ⟨h1, h2, h3, h4, h5⟩ := this
      subst h1 h2 h3 h4
      simp only [if_true]
      split
      · rename_i hn
        exact absurd (List.getLast?_eq_none_iff.1 hn) h5
      · simp only [Bool.and_self, if_true]
        split <;> exact nofun

example : ∀ k, (((⟨fun _ => .plain (some 1) (some 1) (some 1) (some 1), none⟩ : World).content k)).good := fun _ => ⟨rfl, rfl, rfl, rfl⟩

/-- The list of jobs becomes empty after the sampler has used it: the next sample ends the daemon. -/
theorem joblabel_empty_list_crash_defect :
    ∃ w1 w2 : World, (life w1 .new [.sample 15]).isSome = true ∧ life w1 .new [.sample 15, .world w2, .sample 25] = none :=
  ⟨⟨fun _ => .jobs true true true true [⟨10, 20, 7, 5⟩], some 0⟩, ⟨fun _ => .jobs true true true true [], some 0⟩,
    by decide +kernel, by decide +kernel⟩

/-- A set of one job without application id is taken, and ends the daemon at the first sample in a job. -/
theorem joblabel_no_app_crash_defect :
    begin ⟨fun _ => .plain (some 10) (some 0) (some 7) none, some 0⟩ .new 5 ≠ none ∧
    begin ⟨fun _ => .plain (some 10) (some 0) (some 7) none, some 0⟩ .new 15 = none := by decide +kernel

/-- A job set that was used stays in use: after it was deleted and made again, samples are labelled with what the old
one last showed. -/
theorem joblabel_stale_set_defect (ts : Nat) (h : 10 ≤ ts) (c : Nat → Content) (n : Option Nat)
    (h0 : c 0 = .plain (some 10) (some 0) (some 7) (some 3)) :
    ∃ x, life ⟨fun _ => .plain (some 10) (some 0) (some 7) (some 3), some 0⟩ .new [.sample 15, .world ⟨c, n⟩, .sample ts] = some (⟨c, n⟩, x) ∧
      x.job = 7 := by
  have h1 : begin ⟨fun _ => .plain (some 10) (some 0) (some 7) (some 3), some 0⟩ .new 15 = some ⟨some 0, 0, 7, 3⟩ := by decide +kernel
  have h2 : begin ⟨c, n⟩ ⟨some 0, 0, 7, 3⟩ ts = some ⟨some 0, 0, 7, 3⟩ := by
    have : inJob ts (u32 10) (u32 0) = true := by simp [inJob, u32, h]
    simp only [begin, initJob, h0, this, if_true, Option.map_some]
  refine ⟨⟨some 0, 0, 7, 3⟩, ?_, rfl⟩
  simp only [life, h1, Option.bind_some, h2]

example : ∃ c : Nat → Content, c 0 = .plain (some 10) (some 0) (some 7) (some 3) ∧ c 1 = .plain (some 30) (some 0) (some 8) (some 1) :=
  ⟨fun k => if k = 0 then .plain (some 10) (some 0) (some 7) (some 3) else .plain (some 30) (some 0) (some 8) (some 1), rfl, rfl⟩

/-- Every sample taken while the job set cannot be used keeps one more reference to it. -/
theorem joblabel_reference_leak_defect (n : Nat) : ∀ (x : Base), x.use = none →
    ∃ y, life ⟨fun _ => .jobs true true true true [], some 0⟩ x (List.replicate n (.sample 5)) =
      some (⟨fun _ => .jobs true true true true [], some 0⟩, y) ∧ y.leaks = x.leaks + n := by
  induction n with
  | zero => intro x _; exact ⟨x, rfl, rfl⟩
  | succ n ih =>
    intro x hx
    have hb : begin ⟨fun _ => .jobs true true true true [], some 0⟩ x 5 = some { x with leaks := x.leaks + 1 } := by
      simp [begin, initJob, hx]
    obtain ⟨y, h1, h2⟩ := ih { x with leaks := x.leaks + 1 } hx
    refine ⟨y, ?_, by rw [h2]; show x.leaks + 1 + n = _; omega⟩
    rw [List.replicate_succ]
    simp only [life, hb, Option.bind_some]
    exact h1

end Verif.JobLabel
