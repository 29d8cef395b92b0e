import Verif.Dump.Lines

/-!
# C78: a daemon that reads the configuration another has written

The claim a user would make: a daemon started with the file that `dump_cfg` wrote has the producers, plugins, updaters and storage
policies of the daemon that wrote it, with their settings.  That is false in many ways (`…_defect`).  Proved is what the daemon has
after reading the file (`reload_again_partial`), for all daemons whose names and values are single words; what the claim and this
have in common (`…_kept_partial`); and the ways in which the claim fails.
-/

namespace Verif.Dump

open Verif.SetOwner (Str)
open Verif.NameTab (codes)
open Verif.Strgp (Pol Sel Plug Time)

/-- The name of the file can be written in a comment: no newline, and not too long. -/
structure FinePath (path : Str) : Prop where
  bytes : ∀ b ∈ path, b ≠ 10 ∧ b < 256
  short : path.length < 8000

/-- **C78 (part).**  A daemon that is started with the file another wrote reads it to the end, and has what `Again` says.  Missing:
names and values with blanks or references to variables, lines beyond the buffer of the reader, and what `Again` says is not what
was there. -/
theorem reload_again_partial (w : World) (path : Str) (d : Daemon) (hp : FinePath path) (hd : Fine w d)
    (hl : ∀ l ∈ dumpLines d, l.length < 8191) : ∃ d', reload w (dumpFile path d) = .ok d' ∧ Again w d d' := by
  obtain ⟨d', h1, h2⟩ := reload_all hd
  refine ⟨d', ?_, h2⟩
  rw [reload_lines w path d hp.bytes hp.short fun l hx =>
    ⟨all_lines hd.rest (fun u hu => fine_updtr_text hd.rest (hd.updtr u hu)) l hx, hl l hx⟩]
  exact h1

instance : DecidableEq Out
  | .ok a, .ok b => if h : a = b then .isTrue (h ▸ rfl) else .isFalse fun e => h (Except.ok.inj e)
  | .error a, .error b => if h : a = b then .isTrue (h ▸ rfl) else .isFalse fun e => h (Except.error.inj e)
  | .ok _, .error _ => .isFalse fun e => nomatch e
  | .error _, .ok _ => .isFalse fun e => nomatch e

/-! ## a case -/

/-- the expressions are `^name$`, and match that name -/
def w0 : World := ⟨⟨fun _ => some [], fun _ => true, fun _ _ => 0⟩, fun r n => decide (r = 94 :: n ++ [36]), fun _ => none, ⟨0, 0⟩,
  fun _ => true, fun _ => true, fun c => decide (c.avs ≠ []), fun _ _ => true, [codes "munge"], 4096⟩

def p1 : Prdcr := ⟨codes "n1", 7, 7, 448, codes "host1", 411, codes "sock", .active, 20000000, codes "munge", 2, 99, 50, [codes "slurm", codes "k"], .connected⟩
def p2 : Prdcr := ⟨codes "n2", 7, 7, 504, codes "host2", 411, codes "rdma", .bridge, 1000000, codes "munge", 1, 4096, -1, [], .disconnected⟩
def u1 : Updtr := ⟨codes "all", 7, 7, 504, false, 3, 1000000, some 100000, 1000000, 100000, [codes "n1", codes "n2"], [(true, codes "meminfo")], true⟩
def u2 : Updtr := ⟨codes "one", 7, 7, 504, false, 0, 2000000, none, 2000000, 0, [codes "n2"], [], false⟩
def g1 : Plug := ⟨3, codes "store_csv", 1⟩
def c1 : Conf := ⟨codes "store_csv", [(codes "path", codes "/data"), (codes "altheader", codes "1")], []⟩
def s1 : Pol := ⟨codes "csv", 7, 7, 504, codes "store_csv", some 3, codes "mem", .schema (codes "meminfo"), none, ⟨30, 0⟩,
  [codes "n1", codes "n.*"], [codes "MemFree"], true, true, 2⟩
def d0 : Daemon := ⟨[p1, p2], [c1], [u1, u2], ⟨[s1], [g1], 4⟩⟩

theorem fine_p1 : FinePrdcr w0 p1 := by
  refine ⟨lit_word _ (by decide +kernel), lit_word _ (by decide +kernel), lit_word _ (by decide +kernel), lit_word _ (by decide +kernel), ?_,
    by decide +kernel, by decide, (fun h => nomatch h), by decide, rfl, by decide +kernel⟩
  intro s hs
  simp only [p1, List.mem_cons, List.not_mem_nil, or_false] at hs
  rcases hs with rfl | rfl <;> exact lit_word _ (by decide +kernel)

theorem fine_p2 : FinePrdcr w0 p2 :=
  ⟨lit_word _ (by decide +kernel), lit_word _ (by decide +kernel), lit_word _ (by decide +kernel), lit_word _ (by decide +kernel), (fun s hs => nomatch hs),
    by decide +kernel, by decide, (fun h => nomatch h), by decide, rfl, by decide +kernel⟩

theorem fine_d0 : Fine w0 d0 where
  prdcr := by
    intro p hp
    simp only [d0, List.mem_cons, List.not_mem_nil, or_false] at hp
    rcases hp with rfl | rfl
    · exact fine_p1
    · exact fine_p2
  prdcrs := by decide +kernel
  own := by
    intro p hp
    simp only [d0, List.mem_cons, List.not_mem_nil, or_false] at hp
    rcases hp with rfl | rfl <;> exact ⟨rfl, by decide +kernel⟩
  plug := by
    intro g hg
    simp only [d0, List.mem_cons, List.not_mem_nil, or_false] at hg
    subst hg
    exact ⟨lit_word _ (by decide +kernel), rfl⟩
  plugs := by decide +kernel
  conf := by
    intro c hc
    simp only [d0, List.mem_cons, List.not_mem_nil, or_false] at hc
    subst hc
    refine ⟨?_, fun k hk => (nomatch hk), .inl (by decide +kernel), .inr rfl, by decide +kernel⟩
    intro a ha
    simp only [c1, List.mem_cons, List.not_mem_nil, or_false] at ha
    rcases ha with rfl | rfl <;>
      exact ⟨lit_word _ (by decide +kernel), lit_word _ (by decide +kernel), by decide +kernel, by decide +kernel, by decide +kernel⟩
  updtr := by
    intro u hu
    simp only [d0, List.mem_cons, List.not_mem_nil, or_false] at hu
    rcases hu with rfl | rfl
    · refine ⟨lit_word _ (by decide +kernel), by decide +kernel, by decide, fun _ => by decide, by decide +kernel, by decide +kernel, ?_⟩
      intro m hm
      simp only [u1, List.mem_cons, List.not_mem_nil, or_false] at hm
      subst hm
      exact ⟨lit_word _ (by decide +kernel), rfl⟩
    · exact ⟨lit_word _ (by decide +kernel), by decide +kernel, by decide, fun _ => by decide, by decide +kernel, by decide +kernel, (fun m hm => nomatch hm)⟩
  updtrs := by decide +kernel
  pol := by
    intro p hp
    simp only [d0, List.mem_cons, List.not_mem_nil, or_false] at hp
    subst hp
    refine ⟨lit_word _ (by decide +kernel), lit_word _ (by decide +kernel), by decide +kernel, lit_word _ (by decide +kernel),
      lit_word "meminfo" (by decide +kernel), fun r h => (nomatch h), fun x h => (nomatch h), by decide, by decide, ?_, by decide⟩
    intro r hr
    simp only [s1, List.mem_cons, List.not_mem_nil, or_false] at hr
    rcases hr with rfl | rfl <;> exact ⟨lit_word _ (by decide +kernel), rfl⟩
  pols := by decide +kernel

theorem lines_d0 : ∀ l ∈ dumpLines d0, l.length < 8191 := by decide +kernel

/-- it is met: two producers, a plugin, two updaters and a policy -/
example : Fine w0 d0 ∧ FinePath (codes "/etc/dump/node-411.conf") ∧ (∀ l ∈ dumpLines d0, l.length < 8191) :=
  ⟨fine_d0, ⟨by decide +kernel, by decide +kernel⟩, lines_d0⟩

/-- the fourth line is the subscription of the first producer to its second stream, the third last the policy -/
example : (dumpLines d0)[3]? = some (codes "prdcr_subscribe regex=^n1$ stream=k") ∧
    (dumpLines d0)[12]? = some (codes "updtr_add name=one push=true interval=2000000") ∧
    (dumpLines d0)[14]? = some (codes "strgp_add name=csv plugin=store_csv container=mem flush=30 perm=504 schema=meminfo") := by decide +kernel

/-! ## what is kept -/

variable {w : World} {d d' : Daemon}

/-- **C78 (part).**  There are the same producers, of the same kind, at the same hosts and ports, over the same transports, with the
same reconnect interval and authentication, subscribed to the same streams.  Missing: owner, permissions, limits, and if they are
started. -/
theorem producers_kept_partial (h : Again w d d') :
    d'.prds.map (fun p => (p.name, p.kind, p.host, p.port, p.xprt, p.reconnect, p.auth)) =
      d.prds.map (fun p => (p.name, p.kind, p.host, p.port, p.xprt, p.reconnect, p.auth)) ∧
    ∀ p ∈ d.prds, ∃ p' ∈ d'.prds, p'.name = p.name ∧ ∀ s, s ∈ p'.streams ↔ s ∈ p.streams := by
  rw [h.prds]
  refine ⟨by rw [List.map_map]; rfl, fun p hp => ⟨prdcrAgain w p, List.mem_map_of_mem hp, rfl, fun s => List.mem_reverse⟩⟩

/-- **C78 (part).**  There are the same plugins, each with its configurations in their order.  Missing: configurations with both
attributes and keywords. -/
theorem plugins_kept_partial (h : Again w d d') (hnd : (d.st.plugs.map (·.name)).Nodup) :
    (∀ n, n ∈ d'.st.plugs.map (·.name) ↔ n ∈ d.st.plugs.map (·.name)) ∧
    ∀ n ∈ d.st.plugs.map (·.name), d'.conf.filter (fun c => c.plugin = n) = d.conf.filter fun c => c.plugin = n := by
  refine ⟨fun n => by rw [h.plugs, List.mem_reverse], fun n hn => ?_⟩
  rw [h.conf]
  generalize d.st.plugs = gs at *
  clear h
  induction gs with
  | nil => exact nomatch hn
  | cons g gs ih =>
    simp only [List.map_cons, List.nodup_cons, List.mem_cons] at hnd hn
    rw [List.flatMap_cons, List.filter_append]
    have other : ∀ (l : List Plug), n ∉ l.map (·.name) →
        (l.flatMap fun g => d.conf.filter fun c => c.plugin = g.name).filter (fun c => c.plugin = n) = [] := by
      intro l hnl
      rw [List.filter_eq_nil_iff]
      intro c hc e
      obtain ⟨g, hg, hc⟩ := List.mem_flatMap.1 hc
      have := (List.mem_filter.1 hc).2
      simp only [decide_eq_true_eq] at this e
      exact hnl (List.mem_map.2 ⟨g, hg, by rw [← this, e]⟩)
    by_cases hg : n = g.name
    · rw [other gs (by rw [hg]; exact hnd.1), List.append_nil, List.filter_filter]
      refine List.filter_congr fun c _ => ?_
      subst hg
      simp
    · have h1 : (d.conf.filter fun c => decide (c.plugin = g.name)).filter (fun c => decide (c.plugin = n)) = [] := by
        rw [List.filter_eq_nil_iff]
        intro c hc e
        have := (List.mem_filter.1 hc).2
        simp only [decide_eq_true_eq] at this e
        exact hg (by rw [← e, this])
      rw [h1, List.nil_append]
      exact ih hnd.2 (hn.resolve_left hg)

theorem again_map {α : Type} (f : Updtr → α) (hf : ∀ w m u, f (updtrAgain w m u) = f u) : ∀ (us : List Updtr) (v : Bool × Nat),
    (updtrsAgain w v us).map f = us.map f
  | [], _ => rfl
  | u :: us, v => by
    simp only [updtrsAgain, List.map_cons, hf, again_map f hf us]

/-- **C78 (part).**  There are the same updaters, with the same producers, running if they were.  Missing: owner, permissions, mode,
and matches. -/
theorem updaters_kept_partial (h : Again w d d') :
    d'.ups.map (fun u => (u.name, u.prdcrs, u.running)) = d.ups.map (fun u => (u.name, u.prdcrs, u.running)) ∧
    d'.ups.map (·.ivl) = d.ups.map (·.taskIvl) := by
  rw [h.ups]
  refine ⟨again_map _ (fun _ _ _ => rfl) _ _, ?_⟩
  generalize (false, 0) = v
  generalize d.ups = us
  induction us generalizing v with
  | nil => rfl
  | cons u us ih => simp only [updtrsAgain, List.map_cons, ih]; rfl

/-- **C78 (part).**  A running updater updates in the same interval, and with the same offset if it is synchronous. -/
theorem schedule_kept_partial (h : Again w d d') (i : Nat) (u : Updtr) (hu : d.ups[i]? = some u) (hr : u.running = true) :
    ∃ u', d'.ups[i]? = some u' ∧ u'.name = u.name ∧ u'.taskIvl = u.taskIvl ∧ (u.off ≠ none → u'.taskOff = u.taskOff) := by
  rw [h.ups]
  generalize (false, 0) = v
  generalize d.ups = us at *
  clear h
  induction us generalizing v i with
  | nil => exact nomatch hu
  | cons x us ih =>
    cases i with
    | zero =>
      simp only [List.getElem?_cons_zero, Option.some.injEq] at hu
      subst hu
      refine ⟨_, rfl, rfl, ?_, ?_⟩
      · simp [updtrAgain, hr]
      · intro ho
        simp [updtrAgain, hr, ho]
    | succ i =>
      simp only [List.getElem?_cons_succ] at hu
      simp only [updtrsAgain, List.getElem?_cons_succ]
      exact ih i _ hu

/-- **C78 (part).**  There are the same storage policies, with the same plugins, containers, schemas and decompositions, for the same
producers, running if they were.  Missing: owner, flush interval and metrics. -/
theorem policies_kept_partial (h : Again w d d') :
    d'.st.pols.map (fun p => (p.name, p.plugin, p.container, p.sel, p.decomp, p.running)) =
      d.st.pols.map (fun p => (p.name, p.plugin, p.container, p.sel, p.decomp, p.running)) ∧
    d'.st.pols.map (·.prdcrs) = d.st.pols.map (·.prdcrs.reverse) := by
  have := h.pols
  have h1 := congrArg (List.map fun p : Pol => (p.name, p.plugin, p.container, p.sel, p.decomp, p.running)) this
  have h2 := congrArg (List.map fun p : Pol => p.prdcrs) this
  rw [List.map_map, List.map_map] at h1 h2
  exact ⟨h1, h2⟩

/-! ## what is not -/

theorem pol_of (h : Again w d d') {p : Pol} (hp : p ∈ d.st.pols) : ∃ p' ∈ d'.st.pols, noStore p' = polAgain w p := by
  have : polAgain w p ∈ d'.st.pols.map noStore := by rw [h.pols]; exact List.mem_map_of_mem hp
  obtain ⟨p', h1, h2⟩ := List.mem_map.1 this
  exact ⟨p', h1, h2⟩

/-- **C78.**  The flush interval of a policy is a million times shorter: `flush` is written in seconds and read as microseconds; the
part below a second is lost. -/
theorem flush_defect (h : Again w d d') {p : Pol} (hp : p ∈ d.st.pols) :
    ∃ p' ∈ d'.st.pols, p'.name = p.name ∧ p'.flush.sec * 10 ^ 9 + p'.flush.nsec = p.flush.sec * 1000 := by
  obtain ⟨p', h1, h2⟩ := pol_of h hp
  refine ⟨p', h1, (congrArg Pol.name h2 : (noStore p').name = _), ?_⟩
  have hf : p'.flush = ⟨p.flush.sec * 1000 / 10 ^ 9, p.flush.sec * 1000 % 10 ^ 9⟩ := congrArg Pol.flush h2
  rw [hf]
  have := Int.emod_add_mul_ediv (p.flush.sec * 1000) (10 ^ 9)
  simp only
  omega

/-- **C78.**  No policy has a list of metrics: a policy that stored some of the metrics of a set stores all of them. -/
theorem metrics_lost_defect (h : Again w d d') : ∀ p' ∈ d'.st.pols, p'.metrics = [] := by
  intro p' hp
  have : noStore p' ∈ d.st.pols.map (polAgain w) := by rw [← h.pols]; exact List.mem_map_of_mem hp
  obtain ⟨p, _, h2⟩ := List.mem_map.1 this
  exact (congrArg Pol.metrics h2).symm

theorem again_mem {u' : Updtr} : ∀ (us : List Updtr) (v : Bool × Nat), u' ∈ updtrsAgain w v us → ∃ u ∈ us, ∃ m, u' = updtrAgain w m u
  | [], _, h => nomatch h
  | u :: us, v, h => by
    rcases List.mem_cons.1 h with rfl | h
    · exact ⟨u, by simp, _, rfl⟩
    · obtain ⟨x, hx, m, e⟩ := again_mem us _ h
      exact ⟨x, by simp [hx], m, e⟩

/-- **C78.**  Everything belongs to who started the daemon, although the owner of producers is written; producers and updaters have the
default permissions, so that one only its owner could change can then be changed by the group. -/
theorem owner_lost_defect (h : Again w d d') :
    (∀ p ∈ d'.prds, p.uid = w.who.uid ∧ p.gid = w.who.gid ∧ p.perm % 512 = 504) ∧
    (∀ u ∈ d'.ups, u.uid = w.who.uid ∧ u.gid = w.who.gid ∧ u.perm % 512 = 504) ∧
    ∀ p ∈ d'.st.pols, p.uid = w.who.uid ∧ p.gid = w.who.gid := by
  refine ⟨fun p hp => ?_, fun u hu => ?_, fun p hp => ?_⟩
  · rw [h.prds] at hp
    obtain ⟨q, _, rfl⟩ := List.mem_map.1 hp
    refine ⟨rfl, rfl, ?_⟩
    simp only [prdcrAgain]
    split <;> rfl
  · rw [h.ups] at hu
    obtain ⟨x, _, m, rfl⟩ := again_mem _ _ hu
    refine ⟨rfl, rfl, ?_⟩
    simp only [updtrAgain]
    split <;> rfl
  · have : noStore p ∈ d.st.pols.map (polAgain w) := by rw [← h.pols]; exact List.mem_map_of_mem hp
    obtain ⟨x, _, h2⟩ := List.mem_map.1 this
    exact ⟨(congrArg Pol.uid h2).symm, (congrArg Pol.gid h2).symm⟩

/-- **C78.**  A producer that has been started but was not connected when the file was written is not started. -/
theorem not_started_defect (h : Again w d d') {p : Prdcr} (hp : p ∈ d.prds) (hc : p.conn = .disconnected) :
    ∃ p' ∈ d'.prds, p'.name = p.name ∧ p'.conn = .stopped := by
  refine ⟨prdcrAgain w p, by rw [h.prds]; exact List.mem_map_of_mem hp, rfl, ?_⟩
  simp [prdcrAgain, hc]

/-- **C78.**  The rail size, credits and receive rate of a producer are lost. -/
theorem limits_lost_defect (h : Again w d d') : ∀ p' ∈ d'.prds, p'.rail = 1 ∧ p'.credits = w.credits ∧ p'.rate = -1 := by
  intro p' hp
  rw [h.prds] at hp
  obtain ⟨q, _, rfl⟩ := List.mem_map.1 hp
  exact ⟨rfl, rfl, rfl⟩

/-- **C78.**  An updater that pulls, written after one that gets pushed updates, gets pushed updates; one that got updates on change
gets all. -/
theorem mode_defect (h : Again w d d') {u v : Updtr} {us : List Updtr} (hd : d.ups = u :: v :: us) (hu : u.auto = false ∧ u.push = 3)
    (hv : v.auto = false ∧ v.push = 0) :
    ∃ u' v' us', d'.ups = u' :: v' :: us' ∧ u'.name = u.name ∧ u'.push = 1 ∧ v'.name = v.name ∧ v'.push = 1 := by
  have e := h.ups
  rw [hd] at e
  refine ⟨_, _, _, e, rfl, ?_, rfl, ?_⟩
  · simp [updtrAgain, modeAgain, hu.1, hu.2]
  · simp [updtrAgain, modeAgain, hu.1, hu.2, hv.1, hv.2]

/-- **C78.**  An updater that is not synchronous becomes synchronous. -/
theorem asynchronous_defect (h : Again w d d') : ∀ u' ∈ d'.ups, u'.off ≠ none := by
  intro u' hu
  rw [h.ups] at hu
  obtain ⟨x, _, m, rfl⟩ := again_mem _ _ hu
  simp [updtrAgain]

/-- **C78.**  An expression that matched a part of names must then match the whole. -/
theorem match_defect (h : Again w d d') : ∀ u' ∈ d'.ups, ∀ m ∈ u'.mats, ∃ r, m.2 = 94 :: r ++ [36] := by
  intro u' hu m hm
  rw [h.ups] at hu
  obtain ⟨x, _, k, rfl⟩ := again_mem _ _ hu
  simp only [updtrAgain, List.mem_reverse, List.mem_map] at hm
  obtain ⟨y, _, rfl⟩ := hm
  exact ⟨y.2, rfl⟩

/-- all of these apply to the case above -/
example : ∃ d', reload w0 (dumpFile (codes "/etc/dump/node-411.conf") d0) = .ok d' ∧ Again w0 d0 d' :=
  reload_again_partial w0 _ d0 ⟨by decide +kernel, by decide +kernel⟩ fine_d0 lines_d0

/-- what they change there -/
example : (s1.flush.sec = 30 ∧ s1.metrics ≠ []) ∧ p2.conn = .disconnected ∧ (u1.auto = false ∧ u1.push = 3) ∧ (u2.auto = false ∧ u2.push = 0) ∧
    u2.off = none ∧ p1.perm % 512 = 448 ∧ p1.uid ≠ w0.who.uid := by decide

/-- **C78.**  If an updater has never been started, the file cannot be read beyond it: the interval is written as that of its task, 0.
The same happens if the name begins with `#`, as those of updaters taken over from a peer do. -/
theorem never_started_defect (path : Str) (d : Daemon) (hp : FinePath path) (us vs : List Updtr) (u : Updtr) (hd : d.ups = us ++ u :: vs)
    (hf : Fine w { d with ups := us }) (ht : ∀ x ∈ d.ups, Word x.name ∧ (∀ p ∈ x.prdcrs, Word p) ∧ ∀ m ∈ x.mats, Word m.2)
    (hl : ∀ l ∈ dumpLines d, l.length < 8191) (hu : u.taskIvl = 0 ∨ u.name.head? = some 35) (hi : 0 ≤ u.taskIvl ∧ u.taskIvl < 2 ^ 53) :
    reload w (dumpFile path d) = .error (some 22) := by
  have hr := hf.rest
  have hr' : FineRest w d := ⟨hr.prdcr, hr.prdcrs, hr.own, hr.plug, hr.plugs, hr.conf, hr.pol⟩
  rw [reload_lines w path d hp.bytes hp.short fun l hx => ⟨all_lines hr' (fun x hx => ⟨(ht x hx).1, (ht x hx).2.1, (ht x hx).2.2⟩) l hx, hl l hx⟩]
  obtain ⟨s, e1, e2, e3⟩ := first_back hr'
  have hb := updtrs_back (w := w) (nm := d.prds.map (·.name)) hr'.prdcrs (fun p hp => by
      obtain ⟨q, hq, rfl⟩ := List.mem_map.1 hp
      exact ⟨(hr'.prdcr q hq).name, hr'.own q hq⟩) us
    ⟨d.prds.map (prdcrAgain w), d.st.plugs.flatMap fun g => d.conf.filter fun c => c.plugin = g.name, [], s⟩ [] (false, 0) .none hf.updtr
    (by simpa using hf.updtrs) (again_names _)
  have hsplit : ∀ (us : List Updtr) (m : List Str) (v : Bool × Nat), ModeRel m v →
      ∃ m' v' rest, ModeRel m' v' ∧ dumpUpdtrs m (us ++ u :: vs) = dumpUpdtrs m us ++ (line (codes "updtr_add" :: updtrWords m' u) :: rest) := by
    intro us
    induction us with
    | nil =>
      intro m v hm
      exact ⟨_, _, _, mode_back hm u, rfl⟩
    | cons x us ih =>
      intro m v hm
      obtain ⟨m', v', rest, h1, h2⟩ := ih _ _ (mode_back hm x)
      refine ⟨m', v', rest, h1, ?_⟩
      simp only [List.cons_append, dumpUpdtrs, h2, List.append_assoc]
  obtain ⟨m', v', rest, hm, hsp⟩ := hsplit us [] (false, 0) .none
  have hn : Word u.name := (ht u (by rw [hd]; simp)).1
  obtain ⟨as, ha, h1, h2, h3, h4⟩ := mode_args (w := w) hm hn (codes "updtr_add")
  unfold dumpLines
  rw [runLines_append, runLines_append, e1]
  simp only
  rw [hd, hsp, runLines_append, hb]
  simp only [runLines]
  rw [exec_updtr_add (updtrWords_wd hm hn) ha]
  unfold updtrAdd
  rw [h1, h2]
  simp only [Option.bind_some]
  rw [us_ld _ (by omega)]
  simp only
  rcases hu with hu | hu
  · by_cases h35 : u.name.head? = some 35
    · rw [if_pos h35]; rfl
    · rw [if_neg h35, if_pos (by omega)]; rfl
  · rw [if_pos hu]; rfl

/-- an updater that was added and not started, as the only one -/
def u3 : Updtr := ⟨codes "new", 7, 7, 504, false, 0, 1000000, some 0, 0, 0, [], [], false⟩

example : Fine w0 { ({ d0 with ups := [u1, u3] } : Daemon) with ups := [u1] } ∧ ({ d0 with ups := [u1, u3] } : Daemon).ups = [u1] ++ u3 :: [] ∧
    (∀ l ∈ dumpLines { d0 with ups := [u1, u3] }, l.length < 8191) ∧ u3.taskIvl = 0 ∧ Word u3.name := by
  refine ⟨?_, rfl, by decide +kernel, rfl, lit_word _ (by decide +kernel)⟩
  have h := fine_d0
  exact { h with
    updtr := fun u hu => h.updtr u (by
      simp only [List.mem_singleton] at hu
      subst hu
      simp [d0])
    updtrs := by decide +kernel }

/-- **C78.**  A configuration of a plugin with attributes and keywords is written as one in which the first keyword is the end of the
last value: two different configurations give the same file. -/
theorem keyword_defect (g : Str) (as : List (Str × Str)) (a v k : Str) :
    dumpConf ⟨g, as ++ [(a, v)], [k]⟩ = dumpConf ⟨g, as ++ [(a, v ++ k)], []⟩ := by
  unfold dumpConf
  have : ∀ (as : List (Str × Str)), confWords ((as ++ [(a, v)]).map fun a => a.1 ++ 61 :: a.2) [k] =
      confWords ((as ++ [(a, v ++ k)]).map fun a => a.1 ++ 61 :: a.2) [] := by
    intro as
    induction as with
    | nil => simp [confWords]
    | cons x as ih =>
      cases as with
      | nil => simp [confWords]
      | cons y as =>
        simp only [List.cons_append, List.map_cons, confWords] at ih ⊢
        rw [ih]
  rw [this]

example : dumpConf ⟨codes "store_csv", [(codes "path", codes "/data")], [codes "verbose"]⟩ = codes "config name=store_csv path=/dataverbose" := by
  decide +kernel

/-- **C78.**  A configuration that the plugin refuses, such as one it has refused before, ends the reading. -/
theorem refused_config_defect : ∃ (w : World) (d : Daemon), Fine { w with takes := w0.takes } d ∧
    reload w (dumpFile (codes "/etc/dump/node-411.conf") d) = .error (some 22) :=
  ⟨{ w0 with takes := fun _ => false }, d0, fine_d0, by decide +kernel⟩

/-- an expression with a dot for any character, between `^` and `$` -/
def dots : Str → Str → Bool
  | [36], [] => true
  | r :: rs, n :: ns => (r == 46 || r == n) && dots rs ns
  | _, _ => false

/-- **C78.**  A name with a dot is taken as an expression: the streams of `a.c` are also subscribed to from `abc`, which had none. -/
theorem dot_defect : ∃ (w : World) (p q : Prdcr) (d' : Daemon), q.streams = [] ∧ p.name ≠ q.name ∧
    reload w (dumpFile (codes "f") ⟨[q, p], [], [], Strgp.init⟩) = .ok d' ∧ ∃ q' ∈ d'.prds, q'.name = q.name ∧ q'.streams ≠ [] :=
  ⟨{ w0 with rx := fun r n => dots (r.drop 1) n }, { p1 with name := codes "a.c" }, { p1 with name := codes "abc", streams := [] },
    ⟨[⟨codes "abc", 0, 0, 1016, codes "host1", 411, codes "sock", .active, 20000000, codes "munge", 1, 4096, -1, [codes "k", codes "slurm"], .disconnected⟩,
      ⟨codes "a.c", 0, 0, 1016, codes "host1", 411, codes "sock", .active, 20000000, codes "munge", 1, 4096, -1, [codes "k", codes "slurm"], .disconnected⟩],
      [], [], Strgp.init⟩, rfl, by decide +kernel, by decide +kernel, by decide +kernel⟩

/-- **C78.**  The name of the file has at most 167 bytes: what is beyond is cut off, with `.conf`, the port and the host, so that daemons
on different hosts write to one file. -/
theorem path_defect (dir h1 h2 p1 p2 : Str) (hl : 167 ≤ dir.length) : dumpPath dir h1 p1 = dumpPath dir h2 p2 := by
  unfold dumpPath
  simp only [List.append_assoc, List.cons_append]
  rw [List.take_append_of_le_length hl, List.take_append_of_le_length hl]

/-- **C78.**  A shorter one is what the user expects. -/
theorem path_whole (dir h p : Str) (hl : dir.length + h.length + p.length < 161) :
    dumpPath dir h p = dir ++ 47 :: h ++ 45 :: p ++ codes ".conf" := by
  unfold dumpPath
  refine List.take_of_length_le ?_
  have : (codes ".conf").length = 5 := by decide +kernel
  simp only [List.length_append, List.length_cons, this]
  omega

example : dumpPath (codes "/etc") (codes "node") (codes "411") = codes "/etc/node-411.conf" := by decide +kernel

end Verif.Dump
