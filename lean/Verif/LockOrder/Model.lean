/-!
# The locks of an aggregator

The aggregator runs on several threads: the threads of its schedulers run the
callbacks of the updaters, of the producers' reconnection tasks; the threads of
its transports run the callbacks of directories, lookups, updates and
connections, and the commands of the users that are connected to it.  All of
them take the same mutexes.  The mutexes are plain ones
(`pthread_mutex_init(_, NULL)`): a thread that takes one it has waits for ever.

A routine is represented by the sequence of mutexes it takes and releases along
one of its paths.  The choices the code makes (is the producer connected, does
the regular expression match, ...) decide which objects are visited; they are
the arguments of the routine, and the theorems hold for all of them.

Waiting for a task to end (`ldmsd_task_join`) is waiting for its callback to
return, ldmsd.c:843-870, so it is written as taking and releasing a lock that
the callback has while it runs.

Not represented: the mutexes of the libraries below (transports, sets,
`task->lock`, requests), the failover mutex, the locks of plug-ins.
-/

namespace Verif.LockOrder

/-- The locks.  ldmsd_cfgobj.c:64-135 (one mutex for each kind of object, and
one in each object), ldmsd_prdcr.c:113 (one in each set of a producer).
`updtrTask`, `treeTask` and `prdcrTask` are not mutexes: they stand for the
callbacks of the tasks, for those who join them. -/
inductive Lock where
  /-- the list of updaters -/
  | updtrTree
  /-- an updater -/
  | updtr (u : Nat)
  /-- the list of producers -/
  | prdcrTree
  /-- a producer -/
  | prdcr (p : Nat)
  /-- a set of a producer -/
  | set (i : Nat)
  /-- the list of storage policies -/
  | strgpTree
  /-- a storage policy -/
  | strgp (s : Nat)
  /-- the callback of an updater's task is running -/
  | updtrTask (u : Nat)
  /-- the callback that cleans an updater's tasks is running -/
  | treeTask (u : Nat)
  /-- the callback of a producer's task is running -/
  | prdcrTask (p : Nat)
  deriving DecidableEq, Repr

/-- What a routine does to a lock. -/
inductive Op where
  | acq (l : Lock)
  | rel (l : Lock)
  deriving DecidableEq, Repr

/-- A path of a routine. -/
abbrev Prog := List Op

/-- Take a lock, do something, release it. -/
def hold (l : Lock) (b : Prog) : Prog := .acq l :: (b ++ [.rel l])

/-- Do something for each object of a list. -/
def each {α : Type} (xs : List α) (f : α → Prog) : Prog := xs.flatMap f

/-- The routines that take locks, with the objects they visit. -/
inductive Routine where
  | updtrTask (u : Nat) (ps : List Nat)
  | treeTask (u : Nat)
  | updtrStart (u : Nat) (ps : List (Nat × List Nat))
  | updtrStop (u : Nat) (ps : List Nat)
  | updtrCmd (u : Nat)
  | updtrPrdcrAdd (u : Nat)
  | updtrDel (u : Nat)
  | updtrNew (u : Nat)
  | updtrStatus (us : List Nat)
  | updateDone (i : Nat) (ss : List Nat)
  | lookupDone (i : Nat) (found : Bool) (ss : List Nat) (us : List (Nat × Bool))
  | dirAdd (p : Nat) (sets : List (Nat × List (Nat × Bool)))
  | dirUpd (p : Nat) (sets : List (Nat × Option (List (Nat × Bool))))
  | connEvent (p : Nat)
  | setGone (p i : Nat)
  | prdcrTask (p : Nat) (passive : Bool)
  | prdcrCmd (p : Nat)
  | prdcrStop (p : Nat)
  | prdcrDel (p : Nat)
  | prdcrNew (p : Nat)
  | prdcrEach (ps : List Nat)
  | prdcrStopEach (ps : List Nat)
  | prdcrHints (ps : List (Nat × List Nat))
  | statsReset (ps : List Nat)
  | updtrLoad (ps : List Nat)
  | updtrTimes (ps : List (Nat × List Nat))
  | dumpCfg (ps : List Nat) (us : List (Nat × List Nat))
  | strgpCmd (s : Nat)
  | strgpDel (s : Nat)
  | strgpNew (s : Nat)
  | strgpStatus (ss : List Nat)
  | strgpStartStop (s : Nat) (ps : List (Nat × List Nat))
  | startAll (ps : List Nat) (us : List (Nat × List (Nat × List Nat)))
      (ss : List (Nat × List (Nat × List Nat)))
  | peerRequest (p : Nat) (r : Routine)
  | closeStores (ss : List (Nat × Bool))

/-- `ldmsd_prd_set_updtr_task_update`, ldmsd_prdcr.c:253-298.  Each updater is
visited; the set is locked when the updater matches. -/
def taskUpdate (i : Nat) (us : List (Nat × Bool)) : Prog :=
  hold .updtrTree (each us fun u =>
    hold (.updtr u.1) (if u.2 then hold (.set i) [] else []))

/-- `__ldmsd_updtr_start`, ldmsd_updtr.c:1002-1040, with `updtr_tasks_create`,
ldmsd_updtr.c:848-891. -/
def updtrStart1 (u : Nat) (ps : List (Nat × List Nat)) : Prog :=
  hold (.updtr u) (each ps fun p =>
    hold (.prdcr p.1) (each p.2 fun i => hold (.set i) []))

/-- `__ldmsd_prdcr_stop`, ldmsd_prdcr.c:1037-1070: the task is joined without
the producer's lock. -/
def prdcrStop1 (p : Nat) : Prog :=
  hold (.prdcr p) [] ++ hold (.prdcrTask p) [] ++ hold (.prdcr p) []

/-- `__ldmsd_strgp_start` and `__ldmsd_strgp_stop`, ldmsd_strgp.c:723-777, with
`ldmsd_prdcr_update`, ldmsd_prdcr.c:1379-1421: the policy's lock is held while
the list of producers and the producers are locked; for each set it is released,
the set is locked and the policy is locked again. -/
def strgpStartStop1 (s : Nat) (ps : List (Nat × List Nat)) : Prog :=
  hold (.strgp s) (hold .prdcrTree (each ps fun p =>
    hold (.prdcr p.1) (each p.2 fun i =>
      [.rel (.strgp s), .acq (.set i), .acq (.strgp s), .rel (.set i)])))

/-- The path of each routine.  A routine that is given a name looks it up first,
under the lock of the list, `ldmsd_cfgobj_find`, ldmsd_cfgobj.c:239-246. -/
def code : Routine → Prog
  /- `updtr_task_cb`, ldmsd_updtr.c:740-754, `schedule_prdcr_updates`,
     ldmsd_updtr.c:572-664 -/
  | .updtrTask u ps =>
    hold (.updtrTask u) (hold (.updtr u) (each ps fun p => hold (.prdcr p) []))
  /- `updtr_tree_task_cb`, ldmsd_updtr.c:776-790.  The tasks it joins
     (`__updtr_task_tree_cleanup`, ldmsd_updtr.c:757-774) have been told to stop
     by their own callback, which released the updater's lock before. -/
  | .treeTask u => hold (.treeTask u) (hold (.updtr u) [])
  /- `ldmsd_updtr_start`, ldmsd_updtr.c:1042-1111 -/
  | .updtrStart u ps => hold .updtrTree [] ++ hold (.updtr u) [] ++ updtrStart1 u ps
  /- `ldmsd_updtr_stop`, ldmsd_updtr.c:1132-1175, `cancel_prdcr_updates`,
     ldmsd_updtr.c:666-696, `__updtr_tasks_stop`, ldmsd_updtr.c:1113-1130 -/
  | .updtrStop u ps =>
    hold .updtrTree [] ++ hold (.updtr u) (each ps fun p => hold (.prdcr p) [])
      ++ hold (.updtrTask u) [] ++ hold (.treeTask u) [] ++ hold (.updtr u) []
  /- `ldmsd_updtr_match_add`, `_match_del`, `_prdcr_del`, status of one updater:
     ldmsd_updtr.c:1250, 1317, 1382, 1479; ldmsd_request.c:3840, 4141, 4309 -/
  | .updtrCmd u => hold .updtrTree [] ++ hold (.updtr u) []
  /- `ldmsd_updtr_prdcr_add`, ldmsd_updtr.c:1405-1458 -/
  | .updtrPrdcrAdd u => hold .updtrTree [] ++ hold (.updtr u) (hold .prdcrTree [])
  /- `ldmsd_updtr_del`, ldmsd_updtr.c:969-1000 -/
  | .updtrDel u => hold .updtrTree (hold (.updtr u) [])
  /- `ldmsd_cfgobj_new_with_auth`, ldmsd_cfgobj.c:138-186: the object comes out
     locked; `ldmsd_updtr_new_with_auth` releases it, ldmsd_updtr.c:943 -/
  | .updtrNew u => [.acq .updtrTree, .acq (.updtr u), .rel .updtrTree, .rel (.updtr u)]
  /- status of all updaters, ldmsd_request.c:3904, 4234, 4363 -/
  | .updtrStatus us => hold .updtrTree (each us fun u => hold (.updtr u) [])
  /- `updtr_update_cb`, ldmsd_updtr.c:214-287: the policies of the set are locked
     one after the other, with the set locked -/
  | .updateDone i ss => hold (.set i) (each ss fun s => hold (.strgp s) [])
  /- `__ldmsd_prdset_lookup_cb`, ldmsd_updtr.c:508-568, `ldmsd_strgp_update`,
     ldmsd_strgp.c:700-721 -/
  | .lookupDone i found ss us =>
    if found then
      hold (.set i) (hold .strgpTree (each ss fun s => hold (.strgp s) []))
        ++ taskUpdate i us
    else hold (.set i) []
  /- `prdcr_dir_cb` with sets that are listed or added, ldmsd_prdcr.c:464-490,
     `_add_cb`, ldmsd_prdcr.c:352-390: the producer is released while the
     updaters are told -/
  | .dirAdd p sets =>
    hold (.prdcr p) (each sets fun i =>
      .rel (.prdcr p) :: (taskUpdate i.1 i.2 ++ [.acq (.prdcr p)]))
  /- `prdcr_dir_cb` with sets that changed, `prdcr_dir_cb_upd`,
     ldmsd_prdcr.c:424-459 -/
  | .dirUpd p sets =>
    hold (.prdcr p) (each sets fun i =>
      hold (.set i.1) [] ++
        match i.2 with
        | some us => .rel (.prdcr p) :: (taskUpdate i.1 us ++ [.acq (.prdcr p)])
        | none => [])
  /- `prdcr_connect_cb`, ldmsd_prdcr.c:669-746, for connection, disconnection,
     error, rejection; `prdcr_dir_cb` with removed sets -/
  | .connEvent p => hold (.prdcr p) []
  /- `prdcr_connect_cb` for a set that is deleted, `__prdcr_remote_set_delete`,
     ldmsd_prdcr.c:514-545 -/
  | .setGone p i => hold (.prdcr p) (hold (.set i) [])
  /- `prdcr_task_cb`, ldmsd_prdcr.c:798-818, `prdcr_connect`,
     ldmsd_prdcr.c:748-796: for a passive producer the producer is released
     around the call of `prdcr_connect_cb` -/
  | .prdcrTask p passive =>
    hold (.prdcrTask p) (hold (.prdcr p)
      (if passive then
        .rel (.prdcr p) :: (hold (.prdcr p) [] ++ [.acq (.prdcr p)]) else []))
  /- commands and status of one producer: ldmsd_prdcr.c:995, 1158, 1221;
     ldmsd_request.c:2161, 2303, 2517, 6067-6085 -/
  | .prdcrCmd p => hold .prdcrTree [] ++ hold (.prdcr p) []
  /- `ldmsd_prdcr_stop`, ldmsd_prdcr.c:1072-1081 -/
  | .prdcrStop p => hold .prdcrTree [] ++ prdcrStop1 p
  /- `ldmsd_prdcr_del`, ldmsd_prdcr.c:943-980 -/
  | .prdcrDel p => hold .prdcrTree (hold (.prdcr p) [])
  /- `ldmsd_prdcr_new_with_auth`, as `updtrNew`, ldmsd_prdcr.c:919 -/
  | .prdcrNew p => [.acq .prdcrTree, .acq (.prdcr p), .rel .prdcrTree, .rel (.prdcr p)]
  /- start, subscribe, unsubscribe by regular expression, status of all:
     ldmsd_prdcr.c:1273-1283, 1434-1441, 1457-1464; ldmsd_request.c:2376-2386,
     2522-2534, 6320-6341; ldmsd.c:1056-1082 -/
  | .prdcrEach ps => hold .prdcrTree (each ps fun p => hold (.prdcr p) [])
  /- `ldmsd_prdcr_stop_regex`, ldmsd_prdcr.c:1288-1308: tasks are joined with the
     list locked -/
  | .prdcrStopEach ps => hold .prdcrTree (each ps prdcrStop1)
  /- `prdcr_hint_tree_status_handler`, ldmsd_request.c:4490-4540, 4415-4463 -/
  | .prdcrHints ps =>
    hold .prdcrTree (each ps fun p =>
      hold (.prdcr p.1) (each p.2 fun i => hold (.set i) []))
  /- `__prdset_stats_reset`, ldmsd_request.c:9001-9021 -/
  | .statsReset ps => each ps fun p => hold (.prdcr p) []
  /- the load of the sets, ldmsd_request.c:7490-7538 -/
  | .updtrLoad ps => hold .updtrTree (each ps fun p => hold (.prdcr p) [])
  /- `update_time_stats_handler`, ldmsd_request.c:8717-8768, 8606-8672 -/
  | .updtrTimes ps =>
    hold .updtrTree (each ps fun p =>
      hold (.prdcr p.1) (each p.2 fun i => hold (.set i) []))
  /- the configuration is written to a file, ldmsd_request.c:6320-6460 -/
  | .dumpCfg ps us =>
    hold .prdcrTree (each ps fun p => hold (.prdcr p) [])
      ++ hold .updtrTree (each us fun u =>
          hold (.updtr u.1) (each u.2 fun p => hold (.prdcr p) []))
      ++ hold .strgpTree []
  /- commands and status of one policy: ldmsd_strgp.c:337, 380, 433, 465;
     ldmsd_request.c:3177 -/
  | .strgpCmd s => hold .strgpTree [] ++ hold (.strgp s) []
  /- `ldmsd_strgp_del`, ldmsd_strgp.c:794-838 -/
  | .strgpDel s => hold .strgpTree (hold (.strgp s) [])
  /- `ldmsd_strgp_new_with_auth`, as `updtrNew`, ldmsd_strgp.c:254 -/
  | .strgpNew s => [.acq .strgpTree, .acq (.strgp s), .rel .strgpTree, .rel (.strgp s)]
  /- status of all policies, ldmsd_request.c:3267-3279, 8972-8984 -/
  | .strgpStatus ss => hold .strgpTree (each ss fun s => hold (.strgp s) [])
  /- `ldmsd_strgp_start` and `ldmsd_strgp_stop`, ldmsd_strgp.c:745-790 -/
  | .strgpStartStop s ps => hold .strgpTree [] ++ strgpStartStop1 s ps
  /- `ldmsd_cfgobjs_start`, ldmsd_config.c:899-967, which the daemon runs when
     its configuration file has been read (ldmsd.c:2344) and failover runs when
     the peer comes back (ldmsd_failover.c:1057, 1224) -/
  | .startAll ps us ss =>
    hold .prdcrTree (each ps fun p => hold (.prdcr p) [])
      ++ hold .updtrTree (each us fun u => updtrStart1 u.1 u.2)
      ++ hold .strgpTree (each ss fun s => strgpStartStop1 s.1 s.2)
  /- `prdcr_connect_cb` when the peer sends a request, ldmsd_prdcr.c:634-636,
     673: `ldmsd_recv_msg` (ldmsd_config.c:1032-1059) carries it out with the
     producer locked -/
  | .peerRequest p r => hold (.prdcr p) (code r)
  /- `ldmsd_strgp_close`, ldmsd_strgp.c:841-857, at the end of the process: a
     policy that is not running (`false`) stays locked -/
  | .closeStores ss =>
    each ss fun s => .acq (.strgp s.1) :: (if s.2 then [.rel (.strgp s.1)] else [])

/-- What a thread has locked, and what it still does. -/
structure Thr where
  held : List Lock
  rest : Prog
  deriving Repr

/-- The threads. -/
abbrev State := Nat → Thr

/-- At the start no thread does anything. -/
def init : State := fun _ => ⟨[], []⟩

/-- Change one thread. -/
def State.put (s : State) (t : Nat) (x : Thr) : State := fun u => if u = t then x else s u

/-- One step of a thread: it begins a routine of those that are allowed, it
takes a lock that nobody has, it releases a lock. -/
inductive Step (allowed : Routine → Prop) : State → State → Prop where
  | start (s : State) (t : Nat) (r : Routine) : allowed r → (s t).rest = [] →
      Step allowed s (s.put t ⟨(s t).held, code r⟩)
  | acq (s : State) (t : Nat) (l : Lock) (k : Prog) : (s t).rest = .acq l :: k →
      (∀ u, l ∉ (s u).held) → Step allowed s (s.put t ⟨l :: (s t).held, k⟩)
  | rel (s : State) (t : Nat) (l : Lock) (k : Prog) : (s t).rest = .rel l :: k →
      Step allowed s (s.put t ⟨(s t).held.erase l, k⟩)

/-- What happens in any order of the threads. -/
inductive Reach (allowed : Routine → Prop) : State → Prop where
  | init : Reach allowed init
  | step {s s' : State} : Reach allowed s → Step allowed s s' → Reach allowed s'

/-- Steps of the threads that are at work; no routine begins. -/
inductive Finish : State → State → Prop where
  | here (s : State) : Finish s s
  | step {s s' s'' : State} : Step (fun _ => False) s s' → Finish s' s'' → Finish s s''

end Verif.LockOrder
