import Verif.Dump.Exec

/-!
# Proofs: producers come back
-/

namespace Verif.Dump

open Verif.SetOwner (Str dec numeral strtol)
open Verif.NameTab (codes attrStr2Id)

variable {w : World}

theorem kind_back (k : Kind) : kindOf k.text = some k ∧ Word k.text := by
  cases k <;> exact ⟨by decide +kernel, by decide +kernel, by decide +kernel, (by
    intro a b e
    have h1 : (36 : Nat) ∈ a ++ 36 :: 123 :: b := by simp
    rw [← e] at h1
    revert h1
    decide +kernel), by decide +kernel⟩

theorem port_back {w : World} {p : Prdcr} (h : FinePrdcr w p) : portOf p.kind (some (ld p.port)) = some p.port := by
  cases hk : p.kind with
  | passive => simp [portOf, h.passive hk]
  | active =>
    have := strtol_val p.port (by have := h.port; omega)
    simp only [portOf, ld_nat, this]
    rw [if_neg (by have := h.port; omega)]
    simp
  | bridge =>
    have := strtol_val p.port (by have := h.port; omega)
    simp only [portOf, ld_nat, this]
    rw [if_neg (by have := h.port; omega)]
    simp

/-- the producer as `prdcr_add` makes it -/
def prdcrNew (w : World) (p : Prdcr) : Prdcr :=
  ⟨p.name, w.who.uid, w.who.gid, 504, p.host, p.port, p.xprt, p.kind, p.reconnect, p.auth, 1, w.credits, -1, [], .stopped⟩

def prdcrWords (p : Prdcr) : List Str :=
  [av "name" p.name, av "host" p.host, av "port" (ld p.port), av "xprt" p.xprt, av "type" p.kind.text,
    av "interval" (ld p.reconnect), av "auth" p.auth, av "uid" (ld p.uid), av "gid" (ld p.gid)]

theorem prdcrWords_wd {p : Prdcr} (h : FinePrdcr w p) : ∀ x ∈ prdcrWords p, Wd x := by
  unfold prdcrWords
  refine wd_cons (wd_one h.name (by decide +kernel)) (wd_cons (wd_one h.host (by decide +kernel)) (wd_cons (wd_one (ld_word _) (by decide +kernel))
    (wd_cons (wd_one h.xprt (by decide +kernel)) (wd_cons (wd_one (kind_back _).2 (by decide +kernel)) (wd_cons (wd_one (ld_word _) (by decide +kernel))
      (wd_cons (wd_one h.auth (by decide +kernel)) (wd_cons (wd_one (ld_word _) (by decide +kernel)) (wd_cons (wd_one (ld_word _) (by decide +kernel))
        wd_nil))))))))

theorem prdcr_add_back {p : Prdcr} (h : FinePrdcr w p) (d : Daemon) (hn : p.name ∉ d.prds.map (·.name)) :
    exec w d (line (codes "prdcr_add" :: prdcrWords p)) = .ok { d with prds := d.prds ++ [prdcrNew w p] } := by
  have ha : attrsOf (prdcrWords p) = some [(1, some p.name), (9, some p.host), (10, some (ld p.port)), (8, some p.xprt),
      (5, some p.kind.text), (2, some (ld p.reconnect)), (35, some p.auth), (32, some (ld p.uid)), (33, some (ld p.gid))] := by
    unfold prdcrWords
    exact attrs_cons id_name (attrs_cons id_host (attrs_cons id_port (attrs_cons id_xprt (attrs_cons id_type (attrs_cons id_interval
      (attrs_cons id_auth (attrs_cons id_uid (attrs_cons id_gid attrs_nil (by decide +kernel)) (by decide +kernel)) (by decide +kernel)) (by decide +kernel)) (by decide +kernel)) (by decide +kernel))
      (by decide +kernel)) (by decide +kernel)) (by decide +kernel)
  rw [exec_prdcr_add (prdcrWords_wd h) ha]
  unfold prdcrAdd
  rw [get_some id_name rfl h.name, get_some id_type rfl (kind_back p.kind).2, get_some id_xprt rfl h.xprt, get_some id_host rfl h.host,
    get_some id_port rfl (ld_word _), get_some id_interval rfl (ld_word _), get_some id_auth rfl h.auth]
  have hr := h.reconnect
  simp only [Option.bind_some, (kind_back p.kind).1, port_back h, us_ld p.reconnect (by omega)]
  rw [if_neg (by omega)]
  have hany : (d.prds.any fun q => decide (q.name = p.name)) = false := by
    rw [List.any_eq_false]
    intro q hq e
    exact hn (List.mem_map.2 ⟨q, hq, by simpa using e⟩)
  simp only [hany, Bool.false_eq_true, if_false, h.host', reduceCtorEq, Option.getD_some, if_pos h.auth']
  rfl

theorem map_same {α : Type} {f : α → α} {l : List α} (h : ∀ x ∈ l, f x = x) : l.map f = l :=
  (List.map_congr_left h).trans (List.map_id l)

/-- the last of the producers is changed -/
theorem setLast (d : Daemon) (ps : List Prdcr) (p : Prdcr) (hd : d.prds = ps ++ [p]) (hn : p.name ∉ ps.map (·.name)) (f : Prdcr → Prdcr) :
    d.setPrdcr p.name f = { d with prds := ps ++ [f p] } := by
  unfold Daemon.setPrdcr
  rw [hd, List.map_append]
  congr 2
  · exact map_same fun q hq => if_neg (fun e => hn (List.mem_map.2 ⟨q, hq, e⟩))
  · simp

theorem find_last (ps : List Prdcr) (p : Prdcr) (hn : p.name ∉ ps.map (·.name)) :
    (ps ++ [p]).find? (fun q => decide (q.name = p.name)) = some p := by
  rw [List.find?_append]
  have : ps.find? (fun q => decide (q.name = p.name)) = none := by
    rw [List.find?_eq_none]
    intro q hq e
    exact hn (List.mem_map.2 ⟨q, hq, by simpa using e⟩)
  rw [this]
  simp

theorem prdcr_start_back (d : Daemon) (ps : List Prdcr) (p : Prdcr) (hd : d.prds = ps ++ [p]) (hn : p.name ∉ ps.map (·.name)) (hw : Word p.name)
    (ho : p.uid = w.who.uid ∧ p.gid = w.who.gid ∧ p.perm = 504) (hs : p.conn = .stopped) :
    exec w d (line [codes "prdcr_start", av "name" p.name]) =
      .ok { d with prds := ps ++ [{ p with conn := .disconnected, perm := 504 + 512 }] } := by
  have ha : attrsOf [av "name" p.name] = some [(1, some p.name)] := attrs_cons id_name attrs_nil (by decide +kernel)
  rw [exec_prdcr_start (wd_cons (wd_one hw (by decide +kernel)) wd_nil) ha]
  unfold prdcrStart
  rw [get_some id_name rfl hw]
  simp only [hd, find_last ps p hn, ho.1, ho.2.1, ho.2.2, owner_default, hs]
  rw [if_neg (by decide), if_neg (by decide), setLast d ps p hd hn]
  simp [ho.1, ho.2.1, ho.2.2]

theorem subscribe_back (d : Daemon) (ps : List Prdcr) (p : Prdcr) (s : Str) (hd : d.prds = ps ++ [p]) (hn : p.name ∉ ps.map (·.name))
    (hw : Word p.name) (hs : Word s) (hown : Own w ((ps ++ [p]).map (·.name)) p.name) (hnew : s ∉ p.streams) :
    exec w d (line [codes "prdcr_subscribe", av "regex" (anchored p.name), av "stream" s]) =
      .ok { d with prds := ps ++ [{ p with streams := s :: p.streams }] } := by
  have ha : attrsOf [av "regex" (anchored p.name), av "stream" s] = some [(4, some (anchored p.name)), (34, some s)] :=
    attrs_cons id_regex (attrs_cons id_stream attrs_nil (by decide +kernel)) (by decide +kernel)
  rw [exec_prdcr_subscribe (wd_cons (wd_one hw.anchored (by decide +kernel)) (wd_cons (wd_one hs (by decide +kernel)) wd_nil)) ha]
  unfold subscribe
  rw [get_some id_regex rfl hw.anchored, get_some id_stream rfl hs]
  have hok : w.se.regexOk (anchored p.name) = true := hown.ok
  simp only [hok, Bool.true_eq_false, reduceCtorEq, if_false, hd, List.map_append]
  congr 3
  · refine map_same fun q hq => ?_
    have : w.rx (anchored p.name) q.name ≠ true := fun e =>
      hn (List.mem_map.2 ⟨q, hq, (hown.only q.name (by simp; exact .inl ⟨q, hq, rfl⟩)).1 e⟩)
    exact if_neg fun e => this e.1
  · have : w.rx (anchored p.name) p.name = true := (hown.only p.name (by simp)).2 rfl
    simp [this, hnew]

theorem streams_back (n : Str) (hw : Word n) : ∀ (ss : List Str) (d : Daemon) (ps : List Prdcr) (p : Prdcr), p.name = n → d.prds = ps ++ [p] →
    n ∉ ps.map (·.name) → Own w ((ps ++ [p]).map (·.name)) n → (∀ s ∈ ss, Word s) → ss.Nodup → (∀ s ∈ ss, s ∉ p.streams) →
    runLines w d (ss.map fun s => line [codes "prdcr_subscribe", av "regex" (anchored n), av "stream" s]) =
      .ok { d with prds := ps ++ [{ p with streams := ss.reverse ++ p.streams }] }
  | [], d, ps, p, _, hd, _, _, _, _, _ => by
    simp only [List.map_nil, runLines, List.reverse_nil, List.nil_append]
    rw [← hd]
  | s :: ss, d, ps, p, hp, hd, hn, hown, hs, hnd, hnew => by
    subst hp
    simp only [List.map_cons, runLines]
    rw [subscribe_back d ps p s hd hn hw (hs s (by simp)) hown (hnew s (by simp))]
    simp only
    rw [streams_back p.name hw ss _ ps { p with streams := s :: p.streams } rfl rfl hn (by simpa using hown) (fun x hx => hs x (by simp [hx]))
      (List.nodup_cons.1 hnd).2 (by
        intro x hx hm
        rcases List.mem_cons.1 hm with rfl | hm
        · exact (List.nodup_cons.1 hnd).1 hx
        · exact hnew x (by simp [hx]) hm)]
    simp

theorem prdcr_back {p : Prdcr} (h : FinePrdcr w p) (d : Daemon) (hn : p.name ∉ d.prds.map (·.name))
    (hown : Own w (d.prds.map (·.name) ++ [p.name]) p.name) :
    runLines w d (dumpPrdcr p) = .ok { d with prds := d.prds ++ [prdcrAgain w p] } := by
  unfold dumpPrdcr
  rw [show (line [codes "prdcr_add", av "name" p.name, av "host" p.host, av "port" (ld p.port), av "xprt" p.xprt, av "type" p.kind.text,
    av "interval" (ld p.reconnect), av "auth" p.auth, av "uid" (ld p.uid), av "gid" (ld p.gid)]) =
    line (codes "prdcr_add" :: prdcrWords p) from rfl]
  simp only [List.cons_append, runLines, prdcr_add_back h d hn]
  have key : ∀ q : Prdcr, q.name = p.name → q.streams = [] →
      runLines w { d with prds := d.prds ++ [q] } (p.streams.map fun s => line [codes "prdcr_subscribe", av "regex" (anchored p.name), av "stream" s]) =
      .ok { d with prds := d.prds ++ [{ q with streams := p.streams.reverse }] } := by
    intro q hq hs
    have := streams_back (w := w) p.name h.name p.streams { d with prds := d.prds ++ [q] } d.prds q hq rfl hn (by simpa [hq] using hown) h.stream h.distinct
      (by rw [hs]; intro _ _ h; exact nomatch h)
    rw [this, hs]
    simp
  by_cases hc : p.conn = .connected
  · rw [if_pos hc]
    simp only [List.cons_append, List.nil_append, runLines]
    have := prdcr_start_back (w := w) { d with prds := d.prds ++ [prdcrNew w p] } d.prds (prdcrNew w p) rfl hn h.name ⟨rfl, rfl, rfl⟩ rfl
    have e : (prdcrNew w p).name = p.name := rfl
    rw [e] at this
    rw [this]
    refine (key { prdcrNew w p with conn := .disconnected, perm := 504 + 512 } rfl rfl).trans ?_
    simp [prdcrAgain, prdcrNew, hc]
  · rw [if_neg hc, List.nil_append, key (prdcrNew w p) rfl rfl]
    simp [prdcrAgain, prdcrNew, hc]

theorem prdcrs_back (all : List Str) : ∀ (ps : List Prdcr) (d : Daemon), (∀ p ∈ ps, FinePrdcr w p ∧ Own w all p.name) →
    (d.prds.map (·.name) ++ ps.map (·.name)).Nodup → (∀ n ∈ d.prds.map (·.name) ++ ps.map (·.name), n ∈ all) →
    runLines w d (ps.flatMap dumpPrdcr) = .ok { d with prds := d.prds ++ ps.map (prdcrAgain w) }
  | [], d, _, _, _ => by simp [runLines]
  | p :: ps, d, h, hnd, hall => by
    obtain ⟨hf, ho⟩ := h p (by simp)
    have hn : p.name ∉ d.prds.map (·.name) := by
      intro hm
      rw [List.nodup_append] at hnd
      exact hnd.2.2 p.name hm p.name (by simp) rfl
    rw [List.flatMap_cons, runLines_append, prdcr_back hf d hn ⟨ho.ok, fun m hm => ho.only m (hall m (by
      simp only [List.mem_append, List.map_cons, List.mem_cons, List.not_mem_nil, or_false] at hm ⊢
      rcases hm with hm | hm
      · exact .inl hm
      · exact .inr (.inl hm)))⟩]
    simp only
    rw [prdcrs_back all ps _ (fun q hq => h q (by simp [hq])) (by
      simpa [prdcrAgain] using hnd) (by
      simpa [prdcrAgain] using hall)]
    simp

end Verif.Dump
