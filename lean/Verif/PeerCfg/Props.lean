import Verif.PeerCfg.Whole

/-!
# C79: the configuration of a failover pair

What a daemon has from its peer, for all configurations of both; what it does when the peer fails, and when it is reset.
-/

namespace Verif.PeerCfg

open Verif.SetOwner (Str)
open Verif.NameTab (codes)
open Verif.Strgp (Pol Sel Who Plug)

/-! ## a pair -/

instance {α : Type} [DecidableEq α] : DecidableEq (Except Fault α)
  | .ok a, .ok b => if h : a = b then .isTrue (h ▸ rfl) else .isFalse fun e => h (Except.ok.inj e)
  | .error a, .error b => if h : a = b then .isTrue (h ▸ rfl) else .isFalse fun e => h (Except.error.inj e)
  | .ok _, .error _ => .isFalse fun e => nomatch e
  | .error _, .ok _ => .isFalse fun e => nomatch e

/-- root runs the daemon, the peer connects as user 7; the skew is 0.1 s -/
def w0 : World := ⟨⟨⟨fun _ => some [], fun _ => true, fun _ _ => 0⟩, fun _ _ => false, fun _ => none, ⟨0, 0⟩,
  fun _ => true, fun _ => true, fun _ => true, fun _ _ => true, [codes "munge", codes "DEFAULT"], 4096⟩, ⟨7, 7⟩, 100000⟩

def p1 : Prdcr := ⟨codes "n1", 7, 7, 448, codes "host1", 411, codes "sock", .active, 20000000, codes "munge", 2, 99, -1, [codes "slurm", codes "k"], .connected⟩
def p2 : Prdcr := ⟨codes "n2", 0, 0, 504, codes "host2", 411, codes "rdma", .bridge, 1000000, codes "DEFAULT", 1, -1, 50, [], .stopped⟩
def u1 : Updtr := ⟨codes "all", 7, 7, 448, false, 0, 1000000, 200000, 1000000, 300000, true, [codes "n1", codes "n2"],
  [(true, codes "mem.*"), (false, codes "vmstat")], true⟩
def u2 : Updtr := ⟨codes "one", 0, 0, 504, false, 3, 2000000, noOffset, 2000000, noOffset, false, [], [], false⟩
def s1 : Pol := ⟨codes "csv", 0, 0, 504, codes "store_csv", some 3, codes "mem", .schema (codes "meminfo"), none, ⟨30, 0⟩,
  [codes "n1", codes "n.*"], [codes "MemFree"], true, true, 2⟩
/-- the daemon that sends, with something it had from its peer -/
def src0 : Daemon := ⟨[p1, { p1 with name := codes "#n9" }, p2], [u1, u2], ⟨[s1], [⟨3, codes "store_csv", 1⟩], 4⟩, [(codes "#n9", false)], [], []⟩
/-- the daemon that receives -/
def dst0 : Daemon := ⟨[{ p2 with name := codes "n3" }], [{ u2 with prdcrs := [codes "n3"] }], ⟨[], [], 0⟩, [], [], []⟩

theorem lit_text {v : Str} (h : (v.all fun b => decide (b < 256) && b != 36) = true) : Text v := by
  rw [List.all_eq_true] at h
  refine ⟨fun b hb => ?_, fun a b e => ?_⟩
  · have := h b hb; simp at this; exact this.1
  · have := h 36 (by rw [e]; simp); simp at this

theorem fine_src0 : Fine w0 src0 := by
  have o1 : ownPrds src0 = [p1, p2] := by decide +kernel
  have o2 : ownUps src0 = [u1, u2] := by decide +kernel
  have o3 : ownPols src0 = [s1] := by decide +kernel
  have t : ∀ v ∈ [codes "n1", codes "n2", codes "host1", codes "host2", codes "sock", codes "rdma", codes "slurm", codes "k", codes "all",
      codes "one", codes "mem.*", codes "vmstat", codes "csv", codes "store_csv", codes "mem", codes "meminfo", codes "n.*", codes "MemFree"],
      Text v := fun v hv => lit_text (by revert hv; revert v; decide +kernel)
  refine ⟨by decide +kernel, by decide, ?_, by rw [o1]; decide +kernel, ?_, by rw [o2]; decide +kernel, ?_, by rw [o3]; decide +kernel⟩
  · rw [o1]
    intro p hp
    simp only [List.mem_cons, List.not_mem_nil, or_false] at hp
    rcases hp with rfl | rfl
    · exact ⟨⟨t _ (by decide +kernel), by decide +kernel⟩, t _ (by decide +kernel), t _ (by decide +kernel),
        fun s hs => t s (by revert hs; revert s; decide +kernel), by decide +kernel, by decide, by decide, by decide, by decide, by decide, rfl⟩
    · exact ⟨⟨t _ (by decide +kernel), by decide +kernel⟩, t _ (by decide +kernel), t _ (by decide +kernel),
        fun s hs => t s (by revert hs; revert s; decide +kernel), by decide +kernel, by decide, by decide, by decide, by decide, by decide, rfl⟩
  · rw [o2, o1]
    intro u hu
    simp only [List.mem_cons, List.not_mem_nil, or_false] at hu
    rcases hu with rfl | rfl
    · exact ⟨⟨t _ (by decide +kernel), by decide +kernel⟩, by decide, by decide, by decide, by decide +kernel, by decide +kernel,
        fun m hm => ⟨t m.2 (by revert hm; revert m; decide +kernel), rfl⟩, fun _ => by unfold Changes; decide +kernel⟩
    · exact ⟨⟨t _ (by decide +kernel), by decide +kernel⟩, by decide, by decide, by decide, by decide +kernel, by decide +kernel,
        fun m hm => ⟨t m.2 (by revert hm; revert m; decide +kernel), rfl⟩, fun h => absurd rfl h⟩
  · rw [o3]
    intro p hp
    rw [List.mem_singleton] at hp
    subst hp
    exact ⟨⟨t _ (by decide +kernel), by decide +kernel⟩, ⟨_, rfl, t _ (by decide +kernel)⟩, t _ (by decide +kernel), t _ (by decide +kernel),
      fun s hs => ⟨t s (by revert hs; revert s; decide +kernel), rfl⟩, fun s hs => t s (by revert hs; revert s; decide +kernel), by decide +kernel⟩

theorem clean_dst0 : Clean dst0 := ⟨by decide +kernel, by decide +kernel, by decide +kernel, rfl, rfl, rfl⟩

theorem master_src0 : Master w0 src0 :=
  ⟨by unfold Changes; decide +kernel, by unfold Changes; decide +kernel⟩

/-! ## what the peer has -/

/-- **C79 (part).**  For all configurations of a daemon whose objects its peer can make: the peer has, besides its own objects, each
producer, updater and storage policy of the daemon, with `#` before its name, and nothing else; objects that the daemon itself has from
a peer are not sent back.  Missing: what is not sent (see `prdcrPeer`, `updtrPeer`, `polPeer` and the defects below), and
configurations that are not `Fine`. -/
theorem transfer_partial (w : World) (src dst : Daemon) (f : Fine w src) (c : Clean dst) :
    transfer w src dst = .ok (withPeer w src dst) := all_sent f c

example : Fine w0 src0 ∧ Clean dst0 := ⟨fine_src0, clean_dst0⟩
example : (withPeer w0 src0 dst0).prds.map (·.name) = [codes "n3", codes "#n1", codes "#n2"] ∧
    (withPeer w0 src0 dst0).ups.map (·.name) = [codes "one", codes "#all", codes "#one"] ∧
    (withPeer w0 src0 dst0).st.pols.map (·.name) = [codes "#csv"] := by decide +kernel

/-- **C79 (part).**  The peer knows each of the daemon's producers at the same host and port, over the same transport, with the same
owner, permissions, reconnect interval and limits, and subscribed to the same streams.  Missing: authentication, and kinds other than
active and passive. -/
theorem producers_partial (w : World) (src dst d : Daemon) (f : Fine w src) (c : Clean dst) (h : transfer w src dst = .ok d)
    (p : Prdcr) (hp : p ∈ src.prds) (hn : ¬ FromPeer p.name) :
    ∃ q ∈ d.prds, q.name = 35 :: p.name ∧ q.host = p.host ∧ q.port = p.port ∧ q.xprt = p.xprt ∧ q.reconnect = p.reconnect ∧
      q.uid = p.uid ∧ q.gid = p.gid ∧ q.perm = p.perm ∧ q.rail = p.rail ∧ q.credits = p.credits ∧ q.rate = p.rate ∧
      (∀ s, s ∈ q.streams ↔ s ∈ p.streams) ∧ (p.kind ≠ .bridge → q.kind = p.kind) := by
  rw [all_sent f c] at h
  injection h with h
  subst h
  have ho : p ∈ ownPrds src := List.mem_filter.2 ⟨hp, by simpa using hn⟩
  refine ⟨prdcrPeer p, List.mem_append_right _ (List.mem_map_of_mem ho), rfl, rfl, rfl, rfl, rfl, rfl, rfl, rfl, rfl, rfl, rfl,
    fun s => List.mem_reverse, fun h => ?_⟩
  cases e : p.kind with
  | active => simp [prdcrPeer, e]
  | passive => simp [prdcrPeer, e]
  | bridge => exact absurd e h

/-- **C79 (part).**  The peer knows each of the daemon's updaters, for the same producers and sets, at the same interval, with the same
owner.  Missing: the offset, automatic intervals, pushed updates. -/
theorem updaters_partial (w : World) (src dst d : Daemon) (f : Fine w src) (c : Clean dst) (h : transfer w src dst = .ok d)
    (u : Updtr) (hu : u ∈ src.ups) (hn : ¬ FromPeer u.name) :
    ∃ v ∈ d.ups, v.name = 35 :: u.name ∧ v.ivl = u.hintIvl ∧ v.sync = u.sync ∧ v.uid = u.uid ∧ v.gid = u.gid ∧ v.perm = u.perm ∧
      v.prdcrs = u.prdcrs.map (35 :: ·) ∧ (∀ m, m ∈ v.mats ↔ m ∈ u.mats) ∧
      ∀ q ∈ v.prdcrs, ∃ p ∈ d.prds, p.name = q := by
  rw [all_sent f c] at h
  injection h with h
  subst h
  have ho : u ∈ ownUps src := List.mem_filter.2 ⟨hu, by simpa using hn⟩
  refine ⟨updtrPeer w u, List.mem_append_right _ (List.mem_map_of_mem ho), rfl, rfl, rfl, rfl, rfl, rfl, rfl,
    fun m => List.mem_reverse, fun q hq => ?_⟩
  obtain ⟨x, hx, rfl⟩ := List.mem_map.1 hq
  obtain ⟨p, hp, rfl⟩ := List.mem_map.1 ((f.updtr u ho).there x hx)
  exact ⟨prdcrPeer p, List.mem_append_right _ (List.mem_map_of_mem hp), rfl⟩

/-- **C79 (part).**  The peer knows each of the daemon's storage policies, for the same plugin, container and schema, the same producers
and metrics in their order.  Missing: owner, flush interval, decomposition. -/
theorem policies_partial (w : World) (src dst d : Daemon) (f : Fine w src) (c : Clean dst) (h : transfer w src dst = .ok d)
    (p : Pol) (hp : p ∈ src.st.pols) (hn : ¬ FromPeer p.name) :
    ∃ q ∈ d.st.pols, q.name = 35 :: p.name ∧ q.plugin = p.plugin ∧ q.container = p.container ∧ q.sel = p.sel ∧ q.metrics = p.metrics ∧
      (∀ r, r ∈ q.prdcrs ↔ r ∈ p.prdcrs) ∧ q.running = false := by
  rw [all_sent f c] at h
  injection h with h
  subst h
  have ho : p ∈ ownPols src := List.mem_filter.2 ⟨hp, by simpa using hn⟩
  exact ⟨polPeer w p, List.mem_append_right _ (List.mem_map_of_mem ho), rfl, rfl, rfl, rfl, rfl, fun m => List.mem_reverse, rfl⟩

example : p1 ∈ src0.prds ∧ ¬ FromPeer p1.name ∧ u1 ∈ src0.ups ∧ ¬ FromPeer u1.name ∧ s1 ∈ src0.st.pols ∧ ¬ FromPeer s1.name ∧ p1.kind ≠ .bridge := by
  decide +kernel

/-- **C79.**  Nothing that the peer sends, and no taking over, giving back or dropping of its configuration, in any order, changes an
object that the daemon did not have from its peer: it has the same own producers, updaters and storage policies as before. -/
theorem own_kept (w : World) (d d' : Daemon) (es : List Ev) (c : Clean d) (h : run w d es = .ok d') :
    ownPrds d' = d.prds ∧ ownUps d' = d.ups ∧ ownPols d' = d.st.pols := by
  have i : Inv d := ⟨by simp [c.peerPrds], by simp [c.peerUps], by simp [c.peerPols]⟩
  have g := (run_good es d d' i h).1
  rw [g.prds, g.ups, g.pols]
  exact ⟨List.filter_eq_self.2 fun p hp => by simpa using c.prds p hp, List.filter_eq_self.2 fun p hp => by simpa using c.ups p hp,
    List.filter_eq_self.2 fun p hp => by simpa using c.pols p hp⟩

/-- **C79.**  At all times, the daemon knows of the peer's only names with the prefix. -/
theorem names_kept (w : World) (d d' : Daemon) (es : List Ev) (c : Clean d) (h : run w d es = .ok d') :
    (∀ x ∈ d'.peerPrds, FromPeer x.1) ∧ (∀ x ∈ d'.peerUps, FromPeer x.1) ∧ ∀ x ∈ d'.peerPols, FromPeer x := by
  have i : Inv d := ⟨by simp [c.peerPrds], by simp [c.peerUps], by simp [c.peerPols]⟩
  have g := (run_good es d d' i h).2
  exact ⟨g.prds, g.ups, g.pols⟩

/-- a history with all kinds of events: the producers connect, the pair is reset, and the transfer comes again -/
example : ((send src0).bind fun ms : List Msg =>
      run w0 dst0 (ms.map Ev.msg ++ [.start, .connects (codes "#n1"), .connects (codes "n3"), .stop, .closed (codes "#n1")] ++ ms.map Ev.msg ++ [.start])).map
    (fun d : Daemon => d.prds.map fun p => (p.name, p.conn)) =
    .ok [(codes "n3", .stopped), (codes "#n1", .disconnected), (codes "#n2", .disconnected)] := by decide +kernel

/-! ## taking over, and dropping -/

/-- **C79 (part).**  When the peer fails the daemon connects all the producers and runs all the updaters it has from it, and its own objects
are as they were.  Missing: storage policies, which stay stopped. -/
theorem takeover_partial (w : World) (src dst d : Daemon) (f : Fine w src) (c : Clean dst) (m : Master w src)
    (h : transfer w src dst = .ok d) : start w d = takenOver w src dst := by
  rw [all_sent f c] at h
  injection h with h
  subst h
  exact taken_over f c m

example : Master w0 src0 := master_src0

/-- what is done is seen in the producers and updaters -/
theorem all_run_partial (w : World) (src dst d : Daemon) (f : Fine w src) (c : Clean dst) (m : Master w src)
    (h : transfer w src dst = .ok d) :
    (∀ p ∈ (start w d).prds, FromPeer p.name → p.conn = .disconnected) ∧ (∀ u ∈ (start w d).ups, FromPeer u.name → u.running = true) ∧
    (∀ p ∈ (start w d).st.pols, FromPeer p.name → p.running = false) := by
  rw [takeover_partial w src dst d f c m h]
  refine ⟨fun p hp hn => ?_, fun p hp hn => ?_, fun p hp hn => ?_⟩
  · rcases List.mem_append.1 hp with hp | hp
    · exact absurd hn (c.prds p hp)
    · obtain ⟨q, _, rfl⟩ := List.mem_map.1 hp; rfl
  · rcases List.mem_append.1 hp with hp | hp
    · exact absurd hn (c.ups p hp)
    · obtain ⟨q, _, rfl⟩ := List.mem_map.1 hp; rfl
  · rcases List.mem_append.1 hp with hp | hp
    · exact absurd hn (c.pols p hp)
    · obtain ⟨q, _, rfl⟩ := List.mem_map.1 hp; rfl

/-- **C79 (part).**  Dropping the peer's configuration leaves the daemon as it was before it had it, whether it did the work of the peer
or not.  Missing: peers with storage policies, and producers with a connection (see the defects). -/
theorem reset_partial (w : World) (src dst d : Daemon) (f : Fine w src) (c : Clean dst) (m : Master w src) (hs : ownPols src = [])
    (hl : ∀ u ∈ dst.ups, ∀ n ∈ u.prdcrs, ¬ FromPeer n) (h : transfer w src dst = .ok d) :
    reset w d = .ok dst ∧ reset w (start w d) = .ok dst := by
  refine ⟨?_, ?_⟩
  · rw [all_sent f c] at h
    injection h with h
    subst h
    exact dropped f c m hs hl
  · rw [takeover_partial w src dst d f c m h]
    exact dropped_later f c m hs hl

/-- the daemon of the example without its policy -/
def src1 : Daemon := { src0 with st := ⟨[], [], 0⟩ }

theorem fine_src1 : Fine w0 src1 :=
  { fine_src0 with
    pol := fun p hp => by simp [ownPols, src1] at hp
    pols := by decide +kernel }

example : Fine w0 src1 ∧ Clean dst0 ∧ Master w0 src1 ∧ ownPols src1 = [] ∧ (∀ u ∈ dst0.ups, ∀ n ∈ u.prdcrs, ¬ FromPeer n) :=
  ⟨fine_src1, clean_dst0, ⟨master_src0.prdcr, master_src0.updtr⟩, by decide +kernel, by decide +kernel⟩

/-! ## what goes wrong -/

/-- **C79, defect.**  The authentication of a producer is not sent: the peer uses its default. -/
theorem auth_defect (w : World) (src dst d : Daemon) (f : Fine w src) (c : Clean dst) (h : transfer w src dst = .ok d) :
    ∀ p ∈ d.prds, FromPeer p.name → p.auth = codes "DEFAULT" := by
  rw [all_sent f c] at h
  injection h with h
  subst h
  intro p hp hn
  rcases List.mem_append.1 hp with hp | hp
  · exact absurd hn (c.prds p hp)
  · obtain ⟨q, _, rfl⟩ := List.mem_map.1 hp
    rfl

/-- **C79, defect.**  The update hints of the sets are not followed at the peer, whatever the updater was told, because
`auto_interval` is off if the message says anything of it. -/
theorem auto_defect (w : World) (src dst d : Daemon) (f : Fine w src) (c : Clean dst) (h : transfer w src dst = .ok d) :
    ∀ u ∈ d.ups, FromPeer u.name → u.auto = false := by
  rw [all_sent f c] at h
  injection h with h
  subst h
  intro p hp hn
  rcases List.mem_append.1 hp with hp | hp
  · exact absurd hn (c.ups p hp)
  · obtain ⟨q, _, rfl⟩ := List.mem_map.1 hp
    rfl

/-- **C79, defect.**  An updater for pushed updates that has a producer or a match is an updater that pulls at the peer: each later message about
it clears the flags. -/
theorem push_defect (w : World) (src dst d : Daemon) (f : Fine w src) (c : Clean dst) (h : transfer w src dst = .ok d)
    (u : Updtr) (hu : u ∈ src.ups) (hn : ¬ FromPeer u.name) (hp : u.prdcrs ≠ [] ∨ u.mats ≠ []) :
    ∃ v ∈ d.ups, v.name = 35 :: u.name ∧ v.push = 0 := by
  rw [all_sent f c] at h
  injection h with h
  subst h
  have ho : u ∈ ownUps src := List.mem_filter.2 ⟨hu, by simpa using hn⟩
  refine ⟨updtrPeer w u, List.mem_append_right _ (List.mem_map_of_mem ho), rfl, ?_⟩
  show (if _ then _ else _) = 0
  rw [if_neg]
  rintro ⟨h1, h2, _⟩
  rcases hp with h | h
  · exact h h1
  · exact h h2

/-- **C79, defect.**  The skew is subtracted again from the offset: an updater that the daemon runs `off + skew` into each interval runs
at `off` at its peer, before its sets are sampled if the skew is what they need. -/
theorem offset_defect (w : World) (src dst d : Daemon) (f : Fine w src) (c : Clean dst) (h : transfer w src dst = .ok d)
    (u : Updtr) (hu : u ∈ src.ups) (hn : ¬ FromPeer u.name) (hs : u.sync = true) (ha : u.at' = u.off + w.skew) :
    ∃ v ∈ d.ups, v.name = 35 :: u.name ∧ v.at' = u.at' - w.skew := by
  rw [all_sent f c] at h
  injection h with h
  subst h
  have ho : u ∈ ownUps src := List.mem_filter.2 ⟨hu, by simpa using hn⟩
  refine ⟨updtrPeer w u, List.mem_append_right _ (List.mem_map_of_mem ho), rfl, ?_⟩
  have : (updtrPeer w u).at' = u.off := by simp [updtrPeer, hs]
  rw [this, ha]
  omega

example : u1.sync = true ∧ u1.at' = u1.off + w0.skew ∧ u1.prdcrs ≠ [] := by decide +kernel

/-- a daemon with one producer, with one updater, with one policy -/
def onePrdcr (p : Prdcr) : Daemon := ⟨[p], [], ⟨[], [], 0⟩, [], [], []⟩
def oneUpdtr (u : Updtr) : Daemon := ⟨[], [u], ⟨[], [], 0⟩, [], [], []⟩
def onePol (p : Pol) : Daemon := ⟨[], [], ⟨[p], [], 0⟩, [], [], []⟩
def none0 : Daemon := ⟨[], [], ⟨[], [], 0⟩, [], [], []⟩

/-- **C79, defect.**  A producer that is a bridge is passive at the peer, which then waits for a connection to a daemon that does not connect. -/
theorem bridge_defect : p2.kind = .bridge ∧ (transfer w0 (onePrdcr p2) none0).map (fun d => d.prds.map (·.kind)) = .ok [.passive] := by
  decide +kernel

/-- **C79, defect.**  A reconnect interval of 2^31 microseconds (36 minutes) or more is not what the peer has: it reads it as an `int`. -/
theorem reconnect_defect : (transfer w0 (onePrdcr { p1 with reconnect := 3600000000 }) none0).map (fun d => d.prds.map (·.reconnect)) = .ok [-694967296] := by
  decide +kernel

/-- **C79, defect.**  The configuration of a daemon with an updater of 0.1 s at the offset 0 destroys its peer if the skew is 0.1 s: what is sent is
the offset less the skew, which is more than half of the interval, and the updater that is refused stays among the updaters though it is freed. -/
theorem short_interval_defect : transfer w0 (oneUpdtr { u1 with prdcrs := [], mats := [], hintIvl := 100000, ivl := 100000, off := -100000, at' := 0 })
    none0 = .error .freed := by decide +kernel

/-- **C79, defect.**  If the peer cannot resolve the host of a producer with a stream, the message about the stream is the end of the peer. -/
theorem stream_defect : transfer { w0 with host := fun _ _ => false } (onePrdcr p1) none0 = .error .abort ∧
    transfer { w0 with host := fun _ _ => false } (onePrdcr p2) none0 = .ok none0 := by decide +kernel

/-- **C79, defect.**  A daemon with a storage policy for schemas by a regular expression crashes when its peer asks for the configuration, whatever
else it has and whatever the peer has. -/
theorem regex_policy_defect (w : World) (src dst : Daemon) (p : Pol) (r : Str) (hp : p ∈ src.st.pols) (hn : ¬ FromPeer p.name) (hr : p.sel = .regex r) :
    ∃ e, transfer w src dst = .error e := by
  have key : ∀ ps : List Pol, p ∈ ps → ∃ e, sendPols ps = .error e := by
    intro ps
    induction ps with
    | nil => intro h; simp at h
    | cons q qs ih =>
      intro h
      rw [sendPols]
      rcases List.mem_cons.1 h with rfl | h
      · have : isPeer p.name = false := by
          rw [← Bool.not_eq_true, isPeer_iff]; exact hn
        have e : sendPol p = .error .null := by unfold sendPol; rw [hr]
        rw [this, e]
        exact ⟨_, rfl⟩
      · obtain ⟨e, he⟩ := ih h
        rw [he]
        split
        · exact ⟨_, rfl⟩
        · cases sendPol q
          · exact ⟨_, rfl⟩
          · exact ⟨_, rfl⟩
  obtain ⟨e, he⟩ := key _ hp
  exact ⟨e, by unfold transfer send; rw [he]⟩

example : transfer w0 (onePol { s1 with sel := .regex (codes "mem.*") }) none0 = .error .null := by decide +kernel

/-- **C79, defect.**  Two producers whose names have the same 126 first bytes are one at the peer, with the host of the first. -/
theorem long_name_defect : (transfer w0 { onePrdcr p1 with
      prds := [{ p1 with name := List.replicate 126 97 ++ [98] }, { p1 with name := List.replicate 126 97 ++ [99], host := codes "host2" }] } none0).map
    (fun d => d.prds.map (·.host)) = .ok [codes "host1"] := by decide +kernel

/-- **C79, defect.**  If the user as whom the daemon connects may not change one of its updaters, the peer has the updater without its matches, and
so updates all sets. -/
theorem matches_defect : u1.mats.length = 2 ∧
    (transfer { w0 with peer := ⟨9, 9⟩ } (oneUpdtr { u1 with prdcrs := [] }) none0).map (fun d => d.ups.map (·.mats)) = .ok [[]] := by decide +kernel

/-- **C79, defect.**  What the daemon had stopped is started at the peer when the daemon fails. -/
theorem stopped_defect (w : World) (src dst d : Daemon) (f : Fine w src) (c : Clean dst) (m : Master w src) (h : transfer w src dst = .ok d)
    (u : Updtr) (hu : u ∈ src.ups) (hn : ¬ FromPeer u.name) : ∃ v ∈ (start w d).ups, v.name = 35 :: u.name ∧ v.running = true := by
  rw [takeover_partial w src dst d f c m h]
  have ho : u ∈ ownUps src := List.mem_filter.2 ⟨hu, by simpa using hn⟩
  exact ⟨_, List.mem_append_right _ (List.mem_map_of_mem ho), rfl, rfl⟩

example : u2 ∈ src0.ups ∧ ¬ FromPeer u2.name ∧ u2.running = false := by decide +kernel

/-- **C79, defect.**  Dropping the configuration of a peer that has a storage policy crashes the daemon. -/
theorem drop_policy_defect : ∃ d, transfer w0 src0 dst0 = .ok d ∧ reset w0 d = .error .null :=
  ⟨_, transfer_partial w0 src0 dst0 fine_src0 clean_dst0, by decide +kernel⟩

/-- **C79, defect.**  A producer of the peer that is connected when the configuration is dropped is left; if the peer comes back with another host
for it, the daemon has the old host. -/
theorem drop_connected_defect : (((transfer w0 (onePrdcr p1) none0).bind fun d : Daemon =>
      run w0 d [.start, .connects (codes "#n1"), .reset, .closed (codes "#n1")]).bind fun d : Daemon =>
      transfer w0 (onePrdcr { p1 with host := codes "host7" }) d).map (fun d : Daemon => d.prds.map (·.host)) = .ok [codes "host1"] := by
  decide +kernel

/-- **C79, defect.**  A configuration that is sent again when what came before could not be deleted, which is not looked at (ldmsd_failover.c:1349),
gives each updater its matches twice. -/
theorem again_defect : ((transfer w0 (oneUpdtr { u1 with prdcrs := [] }) none0).bind fun d : Daemon =>
      transfer w0 (oneUpdtr { u1 with prdcrs := [] }) d).map (fun d : Daemon => d.ups.map (·.mats.length)) = .ok [4] := by decide +kernel

end Verif.PeerCfg
