/-!
# Name tables

The three sorted tables searched with `bsearch`: command verbs and attribute names of ldmsd
(`ldms/src/ldmsd/ldmsd_request_util.c`) and metric type names (`ldms/src/core/ldms.c`), and the
two arrays indexed by metric type.

The identifiers are the values of the C enumerations (`ldmsd_request.h:73-201`, `:203-248`,
`ldms_core.h:230-262`).
-/

namespace Verif.NameTab

/-- the bytes of an (ASCII) C string literal, without the final NUL -/
def codes (s : String) : List Nat := s.toList.map Char.toNat

/-- `strcmp` on strings without NUL bytes -/
def strcmp : List Nat → List Nat → Ordering
  | [], [] => .eq
  | [], _ :: _ => .lt
  | _ :: _, [] => .gt
  | a :: as, b :: bs => if a < b then .lt else if b < a then .gt else strcmp as bs

/-- `tolower` of an ASCII byte -/
def lower (c : Nat) : Nat := if 65 ≤ c ∧ c ≤ 90 then c + 32 else c

/-- `strcasecmp` -/
def strcasecmp (a b : List Nat) : Ordering := strcmp (a.map lower) (b.map lower)

/-- `bsearch` of the C library (glibc `bits/stdlib-bsearch.h`): the index found between `lo` and
`hi`.  `cmp i` is the comparison of the key with element `i`. -/
def bsearchLoop (cmp : Nat → Ordering) : Nat → Nat → Nat → Option Nat
  | 0, _, _ => none
  | f + 1, lo, hi =>
    if lo < hi then
      let idx := (lo + hi) / 2
      match cmp idx with
      | .lt => bsearchLoop cmp f lo idx
      | .gt => bsearchLoop cmp f (idx + 1) hi
      | .eq => some idx
    else none

/-- `bsearch` in a table of names, returning the identifier -/
def lookup (cmp : List Nat → List Nat → Ordering) (tab : List (String × Nat)) (key : List Nat) :
    Option Nat :=
  match bsearchLoop (fun i => cmp key (codes (tab[i]?.getD ("", 0)).1)) (tab.length + 1) 0
      tab.length with
  | none => none
  | some i => (tab[i]?).map Prod.snd

/-- `req_str_id_table` (`ldmsd_request_util.c:64-161`) -/
def reqTab : List (String × Nat) := [
  ("auth_add", 2560), ("auth_del", 2561), ("banner", 1566), ("bridge_add", 268),
  ("bridge_del", 257), ("bridge_start", 258), ("bridge_stop", 259), ("config", 1287),
  ("daemon", 1539), ("daemon_exit", 1545), ("daemon_name", 1562), ("daemon_status", 1539),
  ("default_auth", 1558), ("default_credits", 1564), ("dump_cfg", 4), ("env", 1541),
  ("exit", 1545), ("failover_config", 1792), ("failover_peercfg_start", 1793),
  ("failover_peercfg_stop", 1794), ("failover_start", 1904), ("failover_status", 1796),
  ("failover_stop", 1905), ("greeting", 2), ("include", 1542), ("listen", 1552), ("load", 1285),
  ("log_file", 1560), ("log_level", 1538), ("log_status", 1556), ("loglevel", 1538),
  ("logrotate", 1544), ("memory", 1559), ("metric_sets_default_authz", 1553), ("oneshot", 1543),
  ("option", 1554), ("pid_file", 1565), ("plugn_sets", 1289), ("plugn_status", 1284),
  ("prdcr_add", 256), ("prdcr_del", 257), ("prdcr_hint_tree", 264), ("prdcr_set_status", 263),
  ("prdcr_start", 258), ("prdcr_start_regex", 261), ("prdcr_stats", 1550),
  ("prdcr_status", 260), ("prdcr_stop", 259), ("prdcr_stop_regex", 262),
  ("prdcr_stream_status", 267), ("prdcr_subscribe", 265), ("prdcr_unsubscribe", 266),
  ("publish_kernel", 1561), ("set_memory", 1559), ("set_route", 1547), ("set_sec_mod", 1555),
  ("set_stats", 1551), ("setgroup_add", 2048), ("setgroup_del", 2050), ("setgroup_ins", 2051),
  ("setgroup_rm", 2052), ("start", 1282), ("stop", 1283), ("stream_client_dump", 2307),
  ("stream_status", 2309), ("strgp_add", 512), ("strgp_del", 513), ("strgp_metric_add", 519),
  ("strgp_metric_del", 520), ("strgp_prdcr_add", 517), ("strgp_prdcr_del", 518),
  ("strgp_start", 514), ("strgp_status", 516), ("strgp_stop", 515), ("subscribe", 2305),
  ("term", 1286), ("thread_stats", 1549), ("udata", 1536), ("udata_regex", 1537),
  ("update_time_stats", 779), ("updtr_add", 768), ("updtr_del", 769), ("updtr_match_add", 775),
  ("updtr_match_del", 776), ("updtr_match_list", 778), ("updtr_prdcr_add", 773),
  ("updtr_prdcr_del", 774), ("updtr_start", 770), ("updtr_status", 772), ("updtr_stop", 771),
  ("updtr_task", 777), ("usage", 1288), ("version", 1540), ("worker_threads", 1563),
  ("xprt_stats", 1548)]

/-- `attr_str_id_table` (`ldmsd_request_util.c:164-210`) -/
def attrTab : List (String × Nat) := [
  ("auth", 35), ("auto_interval", 31), ("auto_switch", 28), ("base", 18), ("container", 13),
  ("credits", 39), ("decomposition", 37), ("flush", 2), ("gid", 33), ("host", 9), ("incr", 19),
  ("instance", 7), ("interval", 2), ("interval_us", 2), ("level", 20), ("match", 11),
  ("metric", 15), ("mode", 20), ("name", 1), ("num", 42), ("offset", 3), ("path", 21),
  ("peer_name", 29), ("perm", 27), ("plugin", 12), ("port", 10), ("producer", 6), ("push", 23),
  ("rail", 38), ("reconnect", 2), ("regex", 4), ("reset", 36), ("rx_rate", 40), ("schema", 14),
  ("size", 42), ("stream", 34), ("string", 16), ("summary", 41), ("test", 24), ("time", 22),
  ("timeout_factor", 30), ("type", 5), ("udata", 17), ("uid", 32), ("xprt", 8)]

/-- `type_name_map` (`ldms/src/core/ldms.c:2134-2181`) -/
def typeTab : List (String × Nat) := [
  ("char", 1), ("char[]", 12), ("char_array", 12), ("d64", 11), ("d64[]", 22),
  ("d64_array", 22), ("f32", 10), ("f32[]", 21), ("f32_array", 21), ("list", 23),
  ("list<>", 23), ("none", 0), ("record", 26), ("record[]", 27), ("record_array", 27),
  ("record_type", 25), ("s16", 5), ("s16[]", 16), ("s16_array", 16), ("s32", 7), ("s32[]", 18),
  ("s32_array", 18), ("s64", 9), ("s64[]", 20), ("s64_array", 20), ("s8", 3), ("s8[]", 14),
  ("s8_array", 14), ("timestamp", 28), ("ts", 28), ("u16", 4), ("u16[]", 15), ("u16_array", 15),
  ("u32", 6), ("u32[]", 17), ("u32_array", 17), ("u64", 8), ("u64[]", 19), ("u64_array", 19),
  ("u8", 2), ("u8[]", 13), ("u8_array", 13)]

/-- `type_names` (`ldms/src/core/ldms.c:1882-1912`) -/
def typeNames : List String := ["none", "char", "u8", "s8", "u16", "s16", "u32", "s32", "u64", "s64", "f32", "d64", "char[]", "u8[]", "s8[]", "u16[]", "s16[]", "u32[]", "s32[]", "u64[]", "s64[]", "f32[]", "d64[]", "list<>", "entry", "record_type", "record_inst", "record[]", "timestamp"]

/-- `type_scalar_types` (`ldms/src/core/ldms.c:1914-1938`): the last initialised element is
`LDMS_V_D64_ARRAY`, so the array has 23 elements. -/
def typeScalars : List Nat := [0, 1, 2, 3, 4, 5, 6, 7, 8, 9, 10, 11, 1, 2, 3, 4, 5, 6, 7, 8, 9, 10, 11]

/-- `LDMSD_NOTSUPPORT_REQ` (`ldmsd_request.h:200`) -/
def notSupported : Nat := 2562

/-- `LDMS_V_LAST` (`ldms_core.h:261`) -/
def typeLast : Nat := 28

/-- `ldmsd_req_str2id` (`ldmsd_request_util.c:217-226`) -/
def reqStr2Id (verb : List Nat) : Nat := (lookup strcmp reqTab verb).getD notSupported

/-- `ldmsd_req_attr_str2id` (`ldmsd_request_util.c:228-237`); `none` is the result -1 -/
def attrStr2Id (name : List Nat) : Option Nat := lookup strcmp attrTab name

/-- `ldms_metric_str_to_type` (`ldms/src/core/ldms.c:2191-2203`) -/
def strToType (name : List Nat) : Nat := (lookup strcasecmp typeTab name).getD 0

/-- `ldms_metric_type_to_str` (`ldms/src/core/ldms.c:2205-2210`); `none` is a read outside the
array -/
def typeToStr (t : Nat) : Option String := typeNames[if t > typeLast then 0 else t]?

/-- `ldms_metric_type_to_scalar_type` (`ldms/src/core/ldms.c:2212-2217`); `none` is a read outside
the array -/
def typeToScalar (t : Nat) : Option Nat := typeScalars[if t > typeLast then 0 else t]?

end Verif.NameTab
