import Verif.Dump.BackPrdcr

/-!
# Proofs: updaters come back
-/

namespace Verif.Dump

open Verif.SetOwner (Str dec numeral strtol)
open Verif.NameTab (codes attrStr2Id)

variable {w : World}

/-- the text of a mode and what it means -/
inductive ModeRel : List Str → Bool × Nat → Prop
  | none : ModeRel [] (false, 0)
  | auto : ModeRel [av "auto_interval" (codes "true")] (true, 0)
  | push : ModeRel [av "push" (codes "true")] (false, 1)
  | change : ModeRel [av "push" (codes "onchange")] (false, 3)

theorem mode_back {m : List Str} {v : Bool × Nat} (h : ModeRel m v) (u : Updtr) : ModeRel (modeOf m u) (modeAgain v u) := by
  unfold modeOf modeAgain
  split
  · exact .auto
  · split
    · exact .push
    · split
      · exact .change
      · exact h

theorem lit_word (n : String) (h : (codes n ≠ [] ∧ ∀ b ∈ codes n, 32 < b ∧ b < 256) ∧ (36 ∉ codes n ∧ (codes n).getLast? ≠ some 92)) :
    Word (codes n) := by
  refine ⟨h.1.1, h.1.2, fun a b e => h.2.1 (by rw [e]; simp), h.2.2⟩

theorem mode_wd {m : List Str} {v : Bool × Nat} (h : ModeRel m v) : ∀ x ∈ m, Wd x := by
  cases h with
  | none => exact wd_nil
  | auto => exact wd_cons (wd_one (lit_word _ (by decide +kernel)) (by decide +kernel)) wd_nil
  | push => exact wd_cons (wd_one (lit_word _ (by decide +kernel)) (by decide +kernel)) wd_nil
  | change => exact wd_cons (wd_one (lit_word _ (by decide +kernel)) (by decide +kernel)) wd_nil

def offOf (u : Updtr) : Int := if u.off = none then 0 else u.taskOff

/-- the updater as `updtr_add` makes it -/
def updtrNew (w : World) (mode : Bool × Nat) (u : Updtr) : Updtr :=
  ⟨u.name, w.who.uid, w.who.gid, 504, mode.1, mode.2, u.taskIvl, some (offOf u), 0, 0, [], [], false⟩

def updtrWords (m : List Str) (u : Updtr) : List Str :=
  av "name" u.name :: m ++ av "interval" (ld u.taskIvl) :: (if u.off.isSome then [av "offset" (ld u.taskOff)] else [])

theorem wd_append {xs ys : List Str} (h1 : ∀ x ∈ xs, Wd x) (h2 : ∀ x ∈ ys, Wd x) : ∀ x ∈ xs ++ ys, Wd x := by
  intro x hx
  rcases List.mem_append.1 hx with hx | hx
  · exact h1 x hx
  · exact h2 x hx

theorem updtrWords_wd {m : List Str} {v : Bool × Nat} (hm : ModeRel m v) {u : Updtr} (h : Word u.name) :
    ∀ x ∈ updtrWords m u, Wd x := by
  unfold updtrWords
  refine wd_append (wd_cons (wd_one h (by decide +kernel)) (mode_wd hm)) (wd_cons (wd_one (ld_word _) (by decide +kernel)) ?_)
  split
  · exact wd_cons (wd_one (ld_word _) (by decide +kernel)) wd_nil
  · exact wd_nil

/-- what is read of the words of `updtr_add` -/
structure UpdtrArgs (w : World) (r : Req) (u : Updtr) (v : Bool × Nat) : Prop where
  name : r.get w "name" = some u.name
  interval : r.get w "interval" = some (ld u.taskIvl)
  offset : (r.get w "offset").getD [48] = ld (offOf u)
  mode : modeArg (r.get w "auto_interval") (r.get w "push") = some v

theorem mode_args {m : List Str} {v : Bool × Nat} (hm : ModeRel m v) {u : Updtr} (h : Word u.name) (verb : Str) :
    ∃ as, attrsOf (updtrWords m u) = some as ∧ UpdtrArgs w ⟨verb, as⟩ u v := by
  have wt : Word (codes "true") := lit_word _ (by decide +kernel)
  have wo : Word (codes "onchange") := lit_word _ (by decide +kernel)
  have z : ld 0 = [48] := by decide +kernel
  unfold updtrWords
  cases ho : u.off with
  | none =>
    have hoff : offOf u = 0 := by simp [offOf, ho]
    simp only [Option.isSome_none, Bool.false_eq_true, if_false]
    cases hm with
    | none =>
      exact ⟨_, attrs_cons id_name (attrs_cons id_interval attrs_nil (by decide +kernel)) (by decide +kernel),
        get_some id_name rfl h, get_some id_interval rfl (ld_word _), by rw [get_none id_offset rfl, hoff, z]; rfl,
        by rw [get_none id_auto rfl, get_none id_push rfl]; rfl⟩
    | auto =>
      exact ⟨_, attrs_cons id_name (attrs_cons id_auto (attrs_cons id_interval attrs_nil (by decide +kernel)) (by decide +kernel)) (by decide +kernel),
        get_some id_name rfl h, get_some id_interval rfl (ld_word _), by rw [get_none id_offset rfl, hoff, z]; rfl,
        by rw [get_some id_auto rfl wt, get_none id_push rfl]; decide +kernel⟩
    | push =>
      exact ⟨_, attrs_cons id_name (attrs_cons id_push (attrs_cons id_interval attrs_nil (by decide +kernel)) (by decide +kernel)) (by decide +kernel),
        get_some id_name rfl h, get_some id_interval rfl (ld_word _), by rw [get_none id_offset rfl, hoff, z]; rfl,
        by rw [get_none id_auto rfl, get_some id_push rfl wt]; decide +kernel⟩
    | change =>
      exact ⟨_, attrs_cons id_name (attrs_cons id_push (attrs_cons id_interval attrs_nil (by decide +kernel)) (by decide +kernel)) (by decide +kernel),
        get_some id_name rfl h, get_some id_interval rfl (ld_word _), by rw [get_none id_offset rfl, hoff, z]; rfl,
        by rw [get_none id_auto rfl, get_some id_push rfl wo]; decide +kernel⟩
  | some o =>
    have hoff : offOf u = u.taskOff := by simp [offOf, ho]
    simp only [Option.isSome_some, if_true]
    cases hm with
    | none =>
      exact ⟨_, attrs_cons id_name (attrs_cons id_interval (attrs_cons id_offset attrs_nil (by decide +kernel)) (by decide +kernel)) (by decide +kernel),
        get_some id_name rfl h, get_some id_interval rfl (ld_word _), by rw [get_some id_offset rfl (ld_word _), hoff]; rfl,
        by rw [get_none id_auto rfl, get_none id_push rfl]; rfl⟩
    | auto =>
      exact ⟨_, attrs_cons id_name (attrs_cons id_auto (attrs_cons id_interval (attrs_cons id_offset attrs_nil (by decide +kernel)) (by decide +kernel)) (by decide +kernel)) (by decide +kernel),
        get_some id_name rfl h, get_some id_interval rfl (ld_word _), by rw [get_some id_offset rfl (ld_word _), hoff]; rfl,
        by rw [get_some id_auto rfl wt, get_none id_push rfl]; decide +kernel⟩
    | push =>
      exact ⟨_, attrs_cons id_name (attrs_cons id_push (attrs_cons id_interval (attrs_cons id_offset attrs_nil (by decide +kernel)) (by decide +kernel)) (by decide +kernel)) (by decide +kernel),
        get_some id_name rfl h, get_some id_interval rfl (ld_word _), by rw [get_some id_offset rfl (ld_word _), hoff]; rfl,
        by rw [get_none id_auto rfl, get_some id_push rfl wt]; decide +kernel⟩
    | change =>
      exact ⟨_, attrs_cons id_name (attrs_cons id_push (attrs_cons id_interval (attrs_cons id_offset attrs_nil (by decide +kernel)) (by decide +kernel)) (by decide +kernel)) (by decide +kernel),
        get_some id_name rfl h, get_some id_interval rfl (ld_word _), by rw [get_some id_offset rfl (ld_word _), hoff]; rfl,
        by rw [get_none id_auto rfl, get_some id_push rfl wo]; decide +kernel⟩

theorem updtr_add_back {ps : List Str} {m : List Str} {v : Bool × Nat} (hm : ModeRel m v) {u : Updtr} (h : FineUpdtr w ps u) (d : Daemon)
    (hn : u.name ∉ d.ups.map (·.name)) :
    exec w d (line (codes "updtr_add" :: updtrWords m u)) = .ok { d with ups := d.ups ++ [updtrNew w v u] } := by
  obtain ⟨as, ha, h1, h2, h3, h4⟩ := mode_args (w := w) hm h.name (codes "updtr_add")
  rw [exec_updtr_add (updtrWords_wd hm h.name) ha]
  have hi := h.interval
  have ho : (offOf u).natAbs * 2 ≤ u.taskIvl := by
    unfold offOf
    split
    · simp; omega
    · rename_i hh; exact h.offset hh
  unfold updtrAdd
  simp only [h1, h2, h3, h4, Option.bind_some, us_ld u.taskIvl (by omega), us_ld (offOf u) (by omega)]
  have hany : (d.ups.any fun q => decide (q.name = u.name)) = false := by
    rw [List.any_eq_false]
    intro q hq e
    exact hn (List.mem_map.2 ⟨q, hq, by simpa using e⟩)
  rw [if_neg h.notPeer, if_neg (by omega), if_neg (by omega)]
  simp only [hany, Bool.false_eq_true, if_false]
  rfl

theorem find_lastU (us : List Updtr) (u : Updtr) (hn : u.name ∉ us.map (·.name)) :
    (us ++ [u]).find? (fun q => decide (q.name = u.name)) = some u := by
  rw [List.find?_append]
  have : us.find? (fun q => decide (q.name = u.name)) = none := by
    rw [List.find?_eq_none]
    intro q hq e
    exact hn (List.mem_map.2 ⟨q, hq, by simpa using e⟩)
  rw [this]
  simp

theorem withLast (d : Daemon) (us : List Updtr) (u u' : Updtr) (hd : d.ups = us ++ [u]) (hn : u.name ∉ us.map (·.name))
    (ho : u.uid = w.who.uid ∧ u.gid = w.who.gid ∧ u.perm = 504) (hr : u.running = false) (f : Updtr → Except (Option Nat) Updtr)
    (hf : f u = .ok u') : withUpdtr w d u.name f = .ok { d with ups := us ++ [u'] } := by
  unfold withUpdtr
  simp only [hd, find_lastU us u hn, ho.1, ho.2.1, ho.2.2, owner_default, hr, hf, Bool.true_eq_false, Bool.false_eq_true, reduceCtorEq, if_false]
  congr 2
  rw [List.map_append, map_same (l := us) fun q hq => if_neg (fun e => hn (List.mem_map.2 ⟨q, hq, e⟩))]
  simp

theorem filter_one {l : List Str} (p : Str → Bool) (x : Str) (hnd : l.Nodup) (hx : x ∈ l) (hp : ∀ y ∈ l, p y = true ↔ y = x) : l.filter p = [x] := by
  induction l with
  | nil => exact nomatch hx
  | cons y l ih =>
    have h2 := List.nodup_cons.1 hnd
    by_cases e : y = x
    · subst e
      rw [List.filter_cons_of_pos ((hp y (by simp)).2 rfl)]
      congr 1
      rw [List.filter_eq_nil_iff]
      intro z hz hpz
      have := (hp z (by simp [hz])).1 hpz
      exact h2.1 (this ▸ hz)
    · rw [List.filter_cons_of_neg (fun hh => e ((hp y (by simp)).1 hh))]
      exact ih h2.2 ((List.mem_cons.1 hx).resolve_left (fun hh => e hh.symm)) fun z hz => hp z (by simp [hz])

theorem updtr_prdcr_back (d : Daemon) (us : List Updtr) (u : Updtr) (p : Str) (hd : d.ups = us ++ [u]) (hn : u.name ∉ us.map (·.name))
    (ho : u.uid = w.who.uid ∧ u.gid = w.who.gid ∧ u.perm = 504) (hr : u.running = false) (hw : Word u.name) (hp : Word p)
    (h35 : u.name.head? ≠ some 35) (hnd : (d.prds.map (·.name)).Nodup) (hin : p ∈ d.prds.map (·.name))
    (hown : Own w (d.prds.map (·.name)) p) (hnew : p ∉ u.prdcrs) :
    exec w d (line [codes "updtr_prdcr_add", av "name" u.name, av "regex" (anchored p)]) =
      .ok { d with ups := us ++ [{ u with prdcrs := u.prdcrs ++ [p] }] } := by
  have ha : attrsOf [av "name" u.name, av "regex" (anchored p)] = some [(1, some u.name), (4, some (anchored p))] :=
    attrs_cons id_name (attrs_cons id_regex attrs_nil (by decide +kernel)) (by decide +kernel)
  rw [exec_updtr_prdcr (wd_cons (wd_one hw (by decide +kernel)) (wd_cons (wd_one hp.anchored (by decide +kernel)) wd_nil)) ha]
  unfold updtrPrdcr
  rw [get_some id_name rfl hw, get_some id_regex rfl hp.anchored]
  have hok : w.se.regexOk (anchored p) = true := hown.ok
  simp only [hok, Bool.true_eq_false, reduceCtorEq, if_false, if_neg h35]
  refine withLast d us u _ hd hn ho hr _ ?_
  congr 3
  refine filter_one _ p hnd hin fun y hy => ?_
  rw [Bool.and_eq_true, show (w.rx (anchored p) y = true ↔ y = p) from hown.only y hy]
  constructor
  · exact fun h => h.1
  · rintro rfl
    exact ⟨rfl, by simpa using hnew⟩

theorem updtr_prdcrs_back (n : Str) (hw : Word n) (h35 : n.head? ≠ some 35) (nm : List Str) (hnm : nm.Nodup) :
    ∀ (pp : List Str) (d : Daemon) (us : List Updtr) (u : Updtr), u.name = n → d.ups = us ++ [u] → n ∉ us.map (·.name) →
    (u.uid = w.who.uid ∧ u.gid = w.who.gid ∧ u.perm = 504) → u.running = false → d.prds.map (·.name) = nm →
    (∀ p ∈ pp, p ∈ nm ∧ Word p ∧ Own w nm p) → pp.Nodup → (∀ p ∈ pp, p ∉ u.prdcrs) →
    runLines w d (pp.map fun p => line [codes "updtr_prdcr_add", av "name" n, av "regex" (anchored p)]) =
      .ok { d with ups := us ++ [{ u with prdcrs := u.prdcrs ++ pp }] }
  | [], d, us, u, _, hd, _, _, _, _, _, _, _ => by
    simp only [List.map_nil, runLines, List.append_nil]
    rw [← hd]
  | p :: pp, d, us, u, hu, hd, hn, ho, hr, hdn, hp, hnd, hnew => by
    subst hu
    have h1 := hp p (by simp)
    simp only [List.map_cons, runLines]
    rw [updtr_prdcr_back d us u p hd hn ho hr hw h1.2.1 h35 (hdn ▸ hnm) (hdn ▸ h1.1) (hdn ▸ h1.2.2) (hnew p (by simp))]
    simp only
    rw [updtr_prdcrs_back u.name hw h35 nm hnm pp { d with ups := us ++ [{ u with prdcrs := u.prdcrs ++ [p] }] } us { u with prdcrs := u.prdcrs ++ [p] } rfl rfl hn ho hr hdn (fun x hx => hp x (by simp [hx]))
      (List.nodup_cons.1 hnd).2 (by
        intro x hx hm
        rcases List.mem_append.1 hm with hm | hm
        · exact hnew x (by simp [hx]) hm
        · simp only [List.mem_singleton] at hm
          subst hm
          exact (List.nodup_cons.1 hnd).1 hx)]
    simp

theorem updtr_match_back (d : Daemon) (us : List Updtr) (u : Updtr) (m : Bool × Str) (hd : d.ups = us ++ [u]) (hn : u.name ∉ us.map (·.name))
    (ho : u.uid = w.who.uid ∧ u.gid = w.who.gid ∧ u.perm = 504) (hr : u.running = false) (hw : Word u.name) (hm : Word m.2)
    (hok : w.se.regexOk (anchored m.2) = true) :
    exec w d (line [codes "updtr_match_add", av "name" u.name, av "match" (if m.1 then codes "inst" else codes "schema"), av "regex" (anchored m.2)]) =
      .ok { d with ups := us ++ [{ u with mats := (m.1, anchored m.2) :: u.mats }] } := by
  have wi : Word (codes "inst") := lit_word _ (by decide +kernel)
  have wsch : Word (codes "schema") := lit_word _ (by decide +kernel)
  have wk : Word (if m.1 then codes "inst" else codes "schema") := by split; exact wi; exact wsch
  have ha : attrsOf [av "name" u.name, av "match" (if m.1 then codes "inst" else codes "schema"), av "regex" (anchored m.2)] =
      some [(1, some u.name), (11, some (if m.1 then codes "inst" else codes "schema")), (4, some (anchored m.2))] :=
    attrs_cons id_name (attrs_cons id_match (attrs_cons id_regex attrs_nil (by decide +kernel)) (by decide +kernel)) (by decide +kernel)
  rw [exec_updtr_match (wd_cons (wd_one hw (by decide +kernel)) (wd_cons (wd_one wk (by decide +kernel)) (wd_cons (wd_one hm.anchored (by decide +kernel)) wd_nil))) ha]
  unfold updtrMatch
  rw [get_some id_name rfl hw, get_some id_regex rfl hm.anchored, get_some id_match rfl wk]
  simp only
  refine withLast d us u _ hd hn ho hr _ ?_
  have e : (if eqi (if m.1 then codes "inst" else codes "schema") "schema" then some false
      else if eqi (if m.1 then codes "inst" else codes "schema") "inst" then some true else none) = some m.1 := by
    cases m.1 <;> decide +kernel
  simp only [e, hok, if_true]

theorem updtr_matches_back (n : Str) (hw : Word n) :
    ∀ (ms : List (Bool × Str)) (d : Daemon) (us : List Updtr) (u : Updtr), u.name = n → d.ups = us ++ [u] → n ∉ us.map (·.name) →
    (u.uid = w.who.uid ∧ u.gid = w.who.gid ∧ u.perm = 504) → u.running = false →
    (∀ m ∈ ms, Word m.2 ∧ w.se.regexOk (94 :: m.2 ++ [36]) = true) →
    runLines w d (ms.map fun m => line [codes "updtr_match_add", av "name" n, av "match" (if m.1 then codes "inst" else codes "schema"),
      av "regex" (anchored m.2)]) =
      .ok { d with ups := us ++ [{ u with mats := (ms.map fun m => (m.1, anchored m.2)).reverse ++ u.mats }] }
  | [], d, us, u, _, hd, _, _, _, _ => by
    simp only [List.map_nil, runLines, List.reverse_nil, List.nil_append]
    rw [← hd]
  | m :: ms, d, us, u, hu, hd, hn, ho, hr, hm => by
    subst hu
    simp only [List.map_cons, runLines]
    rw [updtr_match_back d us u m hd hn ho hr hw (hm m (by simp)).1 (hm m (by simp)).2]
    simp only
    rw [updtr_matches_back u.name hw ms _ us { u with mats := (m.1, anchored m.2) :: u.mats } rfl rfl hn ho hr (fun x hx => hm x (by simp [hx]))]
    simp

theorem updtr_start_back (d : Daemon) (us : List Updtr) (u : Updtr) (hd : d.ups = us ++ [u]) (hn : u.name ∉ us.map (·.name))
    (ho : u.uid = w.who.uid ∧ u.gid = w.who.gid ∧ u.perm = 504) (hr : u.running = false) (hw : Word u.name) :
    exec w d (line [codes "updtr_start", av "name" u.name]) =
      .ok { d with ups := us ++ [{ u with running := true, perm := 504 + 512, taskIvl := u.ivl, taskOff := u.off.getD (-(2 ^ 63)) }] } := by
  have ha : attrsOf [av "name" u.name] = some [(1, some u.name)] := attrs_cons id_name attrs_nil (by decide +kernel)
  rw [exec_updtr_start (wd_cons (wd_one hw (by decide +kernel)) wd_nil) ha]
  unfold updtrStart
  rw [get_some id_name rfl hw]
  simp only
  refine withLast d us u _ hd hn ho hr _ ?_
  rw [ho.2.2]
  rfl

theorem updtr_back {nm : List Str} {m : List Str} {v : Bool × Nat} (hm : ModeRel m v) {u : Updtr} (h : FineUpdtr w nm u) (d : Daemon)
    (hn : u.name ∉ d.ups.map (·.name)) (hd : d.prds.map (·.name) = nm) (hnm : nm.Nodup)
    (hown : ∀ p ∈ nm, Word p ∧ Own w nm p) :
    runLines w d (dumpUpdtr m u) = .ok { d with ups := d.ups ++ [updtrAgain w v u] } := by
  unfold dumpUpdtr
  rw [show line (codes "updtr_add" :: av "name" u.name :: m ++ av "interval" (ld u.taskIvl) ::
    (if u.off.isSome then [av "offset" (ld u.taskOff)] else [])) = line (codes "updtr_add" :: updtrWords m u) from rfl]
  simp only [List.cons_append, runLines, updtr_add_back hm h d hn]
  rw [runLines_append, runLines_append]
  rw [updtr_prdcrs_back u.name h.name h.notPeer nm hnm u.prdcrs { d with ups := d.ups ++ [updtrNew w v u] } d.ups (updtrNew w v u) rfl rfl hn ⟨rfl, rfl, rfl⟩ rfl hd
    (fun p hp => ⟨h.there p hp, hown p (h.there p hp)⟩) h.distinct (fun _ _ h => nomatch h)]
  simp only
  rw [updtr_matches_back u.name h.name u.mats _ d.ups { updtrNew w v u with prdcrs := (updtrNew w v u).prdcrs ++ u.prdcrs } rfl rfl hn ⟨rfl, rfl, rfl⟩ rfl
    h.regex]
  simp only
  cases hr : u.running with
  | false =>
    simp [runLines, updtrAgain, updtrNew, hr, offOf, anchored]
  | true =>
    have := updtr_start_back (w := w) { d with ups := d.ups ++ [{ updtrNew w v u with
        prdcrs := (updtrNew w v u).prdcrs ++ u.prdcrs, mats := (u.mats.map fun m => (m.1, anchored m.2)).reverse ++ (updtrNew w v u).mats }] } d.ups _ rfl hn
      ⟨rfl, rfl, rfl⟩ rfl h.name
    simp only [if_true, runLines]
    have e : ((updtrNew w v u).name : Str) = u.name := rfl
    simp only [e] at this
    rw [show (updtrNew w v u).name = u.name from rfl]
    rw [this]
    simp [updtrAgain, updtrNew, hr, offOf, anchored]

theorem updtrs_back {nm : List Str} (hnm : nm.Nodup) (hown : ∀ p ∈ nm, Word p ∧ Own w nm p) :
    ∀ (us : List Updtr) (d : Daemon) (m : List Str) (v : Bool × Nat), ModeRel m v → (∀ u ∈ us, FineUpdtr w nm u) →
    (d.ups.map (·.name) ++ us.map (·.name)).Nodup → d.prds.map (·.name) = nm →
    runLines w d (dumpUpdtrs m us) = .ok { d with ups := d.ups ++ updtrsAgain w v us }
  | [], d, _, _, _, _, _, _ => by simp [runLines, dumpUpdtrs, updtrsAgain]
  | u :: us, d, m, v, hm, h, hnd, hd => by
    have hn : u.name ∉ d.ups.map (·.name) := by
      intro hx
      rw [List.nodup_append] at hnd
      exact hnd.2.2 u.name hx u.name (by simp) rfl
    rw [dumpUpdtrs, runLines_append, updtr_back (mode_back hm u) (h u (by simp)) d hn hd hnm hown]
    simp only
    rw [updtrs_back hnm hown us { d with ups := d.ups ++ [updtrAgain w (modeAgain v u) u] } _ _ (mode_back hm u) (fun x hx => h x (by simp [hx])) (by simpa [updtrAgain] using hnd) hd]
    simp [updtrsAgain]

end Verif.Dump
