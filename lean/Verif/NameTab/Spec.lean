/-!
# What the names of commands and attributes mean

Written from the C enumerations and the manual pages, not from the tables that are searched.
-/

namespace Verif.NameTab

/-- `enum ldmsd_request` (`ldms/src/ldmsd/ldmsd_request.h:73-201`): the constant `LDMSD_X_REQ` is listed as
the lower-case `x` -/
def reqEnum : List (String × Nat) := [
  ("example", 1), ("greeting", 2), ("cfg_cntr", 3), ("dump_cfg", 4), ("prdcr_add", 256),
  ("prdcr_del", 257), ("prdcr_start", 258), ("prdcr_stop", 259), ("prdcr_status", 260),
  ("prdcr_start_regex", 261), ("prdcr_stop_regex", 262), ("prdcr_set", 263),
  ("prdcr_hint_tree", 264), ("prdcr_subscribe", 265), ("prdcr_unsubscribe", 266),
  ("prdcr_stream_status", 267), ("bridge_add", 268), ("strgp_add", 512), ("strgp_del", 513),
  ("strgp_start", 514), ("strgp_stop", 515), ("strgp_status", 516), ("strgp_prdcr_add", 517),
  ("strgp_prdcr_del", 518), ("strgp_metric_add", 519), ("strgp_metric_del", 520),
  ("store_time_stats", 521), ("updtr_add", 768), ("updtr_del", 769), ("updtr_start", 770),
  ("updtr_stop", 771), ("updtr_status", 772), ("updtr_prdcr_add", 773), ("updtr_prdcr_del", 774),
  ("updtr_match_add", 775), ("updtr_match_del", 776), ("updtr_task", 777),
  ("updtr_match_list", 778), ("update_time_stats", 779), ("smplr_add", 1024), ("smplr_del", 1025),
  ("smplr_start", 1026), ("smplr_stop", 1027), ("plugn_add", 1280), ("plugn_del", 1281),
  ("plugn_start", 1282), ("plugn_stop", 1283), ("plugn_status", 1284), ("plugn_load", 1285),
  ("plugn_term", 1286), ("plugn_config", 1287), ("plugn_list", 1288), ("plugn_sets", 1289),
  ("set_udata", 1536), ("set_udata_regex", 1537), ("verbose", 1538), ("daemon_status", 1539),
  ("version", 1540), ("env", 1541), ("include", 1542), ("oneshot", 1543), ("logrotate", 1544),
  ("exit_daemon", 1545), ("record_len_advice", 1546), ("set_route", 1547), ("xprt_stats", 1548),
  ("thread_stats", 1549), ("prdcr_stats", 1550), ("set_stats", 1551), ("listen", 1552),
  ("set_default_authz", 1553), ("cmdline_options_set", 1554), ("set_sec_mod", 1555),
  ("log_status", 1556), ("stats_reset", 1557), ("default_auth", 1558), ("memory", 1559),
  ("log_file", 1560), ("publish_kernel", 1561), ("daemon_name_set", 1562),
  ("worker_thr_set", 1563), ("default_credits", 1564), ("pid_file", 1565), ("banner_mode", 1566),
  ("failover_config", 1792), ("failover_peercfg_start", 1793), ("failover_peercfg_stop", 1794),
  ("failover_mod", 1795), ("failover_status", 1796), ("failover_pair", 1797),
  ("failover_reset", 1798), ("failover_cfgprdcr", 1799), ("failover_cfgupdtr", 1800),
  ("failover_cfgstrgp", 1801), ("failover_ping", 1802), ("failover_peercfg", 1803),
  ("failover_start", 1904), ("failover_stop", 1905), ("setgroup_add", 2048),
  ("setgroup_mod", 2049), ("setgroup_del", 2050), ("setgroup_ins", 2051), ("setgroup_rm", 2052),
  ("stream_publish", 2304), ("stream_subscribe", 2305), ("stream_unsubscribe", 2306),
  ("stream_client_dump", 2307), ("stream_new", 2308), ("stream_status", 2309),
  ("stream_stats", 2310), ("stream_client_stats", 2311), ("auth_add", 2560), ("auth_del", 2561),
  ("notsupport", 2562)]

/-- `enum ldmsd_request_attr` (`ldmsd_request.h:203-248`): the constant `LDMSD_ATTR_X` is listed as the
lower-case `x` -/
def attrEnum : List (String × Nat) := [
  ("term", 0), ("name", 1), ("interval", 2), ("offset", 3), ("regex", 4), ("type", 5),
  ("producer", 6), ("instance", 7), ("xprt", 8), ("host", 9), ("port", 10), ("match", 11),
  ("plugin", 12), ("container", 13), ("schema", 14), ("metric", 15), ("string", 16),
  ("udata", 17), ("base", 18), ("increment", 19), ("level", 20), ("path", 21), ("time", 22),
  ("push", 23), ("test", 24), ("rec_len", 25), ("json", 26), ("perm", 27), ("auto_switch", 28),
  ("peer_name", 29), ("timeout_factor", 30), ("auto_interval", 31), ("uid", 32), ("gid", 33),
  ("stream", 34), ("auth", 35), ("reset", 36), ("decomp", 37), ("rail", 38), ("credits", 39),
  ("rx_rate", 40), ("summary", 41), ("size", 42), ("last", 43)]

/-- commands with another name than the request they send -/
def verbAlias : List (String × String) := [
  ("banner", "banner_mode"), ("bridge_del", "prdcr_del"), ("bridge_start", "prdcr_start"),
  ("bridge_stop", "prdcr_stop"), ("config", "plugn_config"), ("daemon", "daemon_status"),
  ("daemon_exit", "exit_daemon"), ("daemon_name", "daemon_name_set"), ("exit", "exit_daemon"),
  ("load", "plugn_load"), ("log_level", "verbose"), ("loglevel", "verbose"),
  ("metric_sets_default_authz", "set_default_authz"), ("option", "cmdline_options_set"),
  ("prdcr_set_status", "prdcr_set"), ("set_memory", "memory"), ("start", "plugn_start"),
  ("stop", "plugn_stop"), ("subscribe", "stream_subscribe"), ("term", "plugn_term"),
  ("udata", "set_udata"), ("udata_regex", "set_udata_regex"), ("usage", "plugn_list"),
  ("worker_threads", "worker_thr_set")]

/-- attribute names with another name than the attribute they set -/
def attrAlias : List (String × String) := [
  ("decomposition", "decomp"), ("flush", "interval"), ("incr", "increment"),
  ("interval_us", "interval"), ("mode", "level"), ("num", "size"), ("reconnect", "interval")]

/-- `name` stands for the constant with value `i` -/
def Means (enum : List (String × Nat)) (alias : List (String × String)) (name : String) (i : Nat) : Prop :=
  ∃ c, (c, i) ∈ enum ∧ (c = name ∨ (name, c) ∈ alias)

instance (enum : List (String × Nat)) (alias : List (String × String)) (name : String) (i : Nat) :
    Decidable (Means enum alias name i) :=
  decidable_of_iff (∃ p ∈ enum, p.2 = i ∧ (p.1 = name ∨ (name, p.1) ∈ alias)) (by
    constructor
    · rintro ⟨⟨c, j⟩, h1, rfl, h2⟩; exact ⟨c, h1, h2⟩
    · rintro ⟨c, h1, h2⟩; exact ⟨(c, i), h1, rfl, h2⟩)

end Verif.NameTab
