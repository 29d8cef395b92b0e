import Verif.Dump.Props

/-!
# C78: whatever the file says

What holds of a daemon after any file has been read.
-/

namespace Verif.Dump

open Verif.SetOwner (Str)
open Verif.NameTab (codes)

/-- Names are unique, no producer has a stream twice, and updaters have producers that are there, none twice. -/
structure Sound (d : Daemon) : Prop where
  prdcrs : (d.prds.map (·.name)).Nodup
  streams : ∀ p ∈ d.prds, p.streams.Nodup
  updtrs : (d.ups.map (·.name)).Nodup
  there : ∀ u ∈ d.ups, u.prdcrs.Nodup ∧ ∀ n ∈ u.prdcrs, n ∈ d.prds.map (·.name)

variable {w : World}

theorem nodup_snoc {l : List Str} {x : Str} (h : l.Nodup) (hx : x ∉ l) : (l ++ [x]).Nodup := by
  refine List.nodup_append.2 ⟨h, by simp, ?_⟩
  intro a ha b hb e
  rw [List.mem_singleton] at hb
  exact hx (by rw [← hb, ← e]; exact ha)

theorem sound_prdcrAdd {d d' : Daemon} {r : Req} (h : Sound d) (e : prdcrAdd w d r = .ok d') : Sound d' := by
  unfold prdcrAdd at e
  repeat' split at e
  all_goals try simp only [reduceCtorEq] at e
  rename_i hany _
  split at e
  case isFalse => exact nomatch e
  have e := Except.ok.inj e
  subst e
  refine ⟨?_, ?_, h.updtrs, fun u hu => ⟨(h.there u hu).1, fun n hn => ?_⟩⟩
  · rw [List.map_append]
    refine nodup_snoc h.prdcrs fun hm => hany ?_
    obtain ⟨q, hq, hn⟩ := List.mem_map.1 hm
    rw [List.any_eq_true]
    exact ⟨q, hq, by simpa using hn⟩
  · intro p hp
    rcases List.mem_append.1 hp with hp | hp
    · exact h.streams p hp
    · rw [List.mem_singleton] at hp
      subst hp
      simp
  · rw [List.map_append]
    exact List.mem_append_left _ ((h.there u hu).2 n hn)

theorem sound_map {d : Daemon} (h : Sound d) (f : Prdcr → Prdcr) (hn : ∀ p, (f p).name = p.name) (hs : ∀ p, p.streams.Nodup → (f p).streams.Nodup) :
    Sound { d with prds := d.prds.map f } := by
  have e : (d.prds.map f).map (·.name) = d.prds.map (·.name) := by
    rw [List.map_map]
    exact List.map_congr_left fun p _ => hn p
  refine ⟨by simpa only [e] using h.prdcrs, ?_, h.updtrs, by simpa only [e] using h.there⟩
  intro p hp
  obtain ⟨q, hq, rfl⟩ := List.mem_map.1 hp
  exact hs q (h.streams q hq)

theorem sound_prdcrStart {d d' : Daemon} {r : Req} (h : Sound d) (e : prdcrStart w d r = .ok d') : Sound d' := by
  unfold prdcrStart at e
  repeat' split at e
  all_goals try simp only [reduceCtorEq] at e
  have e := Except.ok.inj e
  subst e
  refine sound_map h _ (fun p => ?_) (fun p hp => ?_) <;> split <;> first | rfl | assumption

theorem sound_subscribe {d d' : Daemon} {r : Req} (h : Sound d) (e : subscribe w d r = .ok d') : Sound d' := by
  unfold subscribe at e
  repeat' split at e
  all_goals try simp only [reduceCtorEq] at e
  have e := Except.ok.inj e
  subst e
  refine sound_map h _ (fun p => ?_) (fun p hp => ?_)
  · split <;> rfl
  · split
    · rename_i hh
      exact List.nodup_cons.2 ⟨hh.2, hp⟩
    · exact hp

theorem sound_st {d : Daemon} (h : Sound d) (s : Strgp.State) : Sound { d with st := s } := ⟨h.prdcrs, h.streams, h.updtrs, h.there⟩

theorem sound_strgp {d d' : Daemon} {ev : Strgp.Ev} (h : Sound d) (e : strgp w d ev = .ok d') : Sound d' := by
  unfold strgp at e
  repeat' split at e
  all_goals try simp only [reduceCtorEq] at e
  have e := Except.ok.inj e
  subst e
  exact sound_st h _

theorem sound_config {d d' : Daemon} {ws : List Str} (h : Sound d) (e : config w d ws = .ok d') : Sound d' := by
  unfold config at e
  split at e
  · exact nomatch e
  · exact nomatch e
  · split at e
    · simp only at e
      split at e
      · exact nomatch e
      · split at e
        · have e := Except.ok.inj e
          subst e
          exact ⟨h.prdcrs, h.streams, h.updtrs, h.there⟩
        · exact nomatch e
    · exact nomatch e

theorem sound_updtrAdd {d d' : Daemon} {r : Req} (h : Sound d) (e : updtrAdd w d r = .ok d') : Sound d' := by
  unfold updtrAdd at e
  repeat' split at e
  all_goals try simp only [reduceCtorEq] at e
  rename_i hany
  have e := Except.ok.inj e
  subst e
  refine ⟨h.prdcrs, h.streams, ?_, ?_⟩
  · rw [List.map_append]
    refine nodup_snoc h.updtrs fun hm => hany ?_
    obtain ⟨q, hq, hn⟩ := List.mem_map.1 hm
    rw [List.any_eq_true]
    exact ⟨q, hq, by simpa using hn⟩
  · intro u hu
    rcases List.mem_append.1 hu with hu | hu
    · exact h.there u hu
    · rw [List.mem_singleton] at hu
      subst hu
      simp

theorem sound_with {d d' : Daemon} {n : Str} {f : Updtr → Except (Option Nat) Updtr} (h : Sound d) (e : withUpdtr w d n f = .ok d')
    (hf : ∀ u u', f u = .ok u' → u'.name = u.name ∧ (u.prdcrs.Nodup ∧ (∀ m ∈ u.prdcrs, m ∈ d.prds.map (·.name)) →
      u'.prdcrs.Nodup ∧ ∀ m ∈ u'.prdcrs, m ∈ d.prds.map (·.name))) : Sound d' := by
  unfold withUpdtr at e
  repeat' split at e
  all_goals try simp only [reduceCtorEq] at e
  rename_i u hu _ _ _ u' hfu
  have e := Except.ok.inj e
  subst e
  obtain ⟨h1, h2⟩ := hf u u' hfu
  have hn : u.name = n := by simpa using List.find?_some hu
  have e : (d.ups.map fun v => if v.name = n then u' else v).map (·.name) = d.ups.map (·.name) := by
    rw [List.map_map]
    refine List.map_congr_left fun v _ => ?_
    simp only [Function.comp]
    split
    · rename_i hv
      rw [h1, hn, hv]
    · rfl
  refine ⟨h.prdcrs, h.streams, by simpa only [e] using h.updtrs, ?_⟩
  intro x hx
  obtain ⟨v, hv, rfl⟩ := List.mem_map.1 hx
  split
  · exact h2 (h.there u (List.mem_of_find?_eq_some hu))
  · exact h.there v hv

theorem sound_updtrPrdcr {d d' : Daemon} {r : Req} (h : Sound d) (e : updtrPrdcr w d r = .ok d') : Sound d' := by
  unfold updtrPrdcr at e
  split at e
  · split at e
    · exact nomatch e
    · split at e
      · exact nomatch e
      · refine sound_with h e ?_
        intro u u' hu
        have hu := Except.ok.inj hu
        subst hu
        refine ⟨rfl, fun hh => ⟨?_, ?_⟩⟩
        · refine List.nodup_append.2 ⟨hh.1, h.prdcrs.filter _, ?_⟩
          intro a ha b hb ee
          have := (List.mem_filter.1 hb).2
          subst ee
          simp [ha] at this
        · intro m hm
          rcases List.mem_append.1 hm with hm | hm
          · exact hh.2 m hm
          · exact (List.mem_filter.1 hm).1
  · exact nomatch e

theorem sound_updtrMatch {d d' : Daemon} {r : Req} (h : Sound d) (e : updtrMatch w d r = .ok d') : Sound d' := by
  unfold updtrMatch at e
  split at e
  · refine sound_with h e ?_
    intro u u' hu
    split at hu
    · exact nomatch hu
    · split at hu
      · have hu := Except.ok.inj hu
        subst hu
        exact ⟨rfl, id⟩
      · exact nomatch hu
  · exact nomatch e

theorem sound_updtrStart {d d' : Daemon} {r : Req} (h : Sound d) (e : updtrStart w d r = .ok d') : Sound d' := by
  unfold updtrStart at e
  split at e
  · exact nomatch e
  · refine sound_with h e ?_
    intro u u' hu
    have hu := Except.ok.inj hu
    subst hu
    exact ⟨rfl, id⟩

theorem sound_exec {d d' : Daemon} {l : Str} (h : Sound d) (e : exec w d l = .ok d') : Sound d' := by
  unfold exec at e
  by_cases c : (cut l).1 = codes "config"
  · rw [if_pos c] at e
    exact sound_config h e
  rw [if_neg c] at e
  cases hr : request l with
  | none =>
    rw [hr] at e
    exact nomatch e
  | some r =>
    rw [hr] at e
    replace e := id e
    by_cases c0 : r.verb = codes "prdcr_add"
    · exact (fun e => by exact sound_prdcrAdd h e) ((if_pos c0).symm.trans e)
    replace e := (if_neg c0).symm.trans e
    by_cases c1 : r.verb = codes "prdcr_start"
    · exact (fun e => by exact sound_prdcrStart h e) ((if_pos c1).symm.trans e)
    replace e := (if_neg c1).symm.trans e
    by_cases c2 : r.verb = codes "prdcr_subscribe"
    · exact (fun e => by exact sound_subscribe h e) ((if_pos c2).symm.trans e)
    replace e := (if_neg c2).symm.trans e
    by_cases c3 : r.verb = codes "load"
    · refine (fun e => ?_) ((if_pos c3).symm.trans e)
      cases hg : r.get w "name" with
      | none => rw [hg] at e; exact nomatch e
      | some n => rw [hg] at e; exact sound_strgp h e
    replace e := (if_neg c3).symm.trans e
    by_cases c4 : r.verb = codes "updtr_add"
    · exact (fun e => by exact sound_updtrAdd h e) ((if_pos c4).symm.trans e)
    replace e := (if_neg c4).symm.trans e
    by_cases c5 : r.verb = codes "updtr_prdcr_add"
    · exact (fun e => by exact sound_updtrPrdcr h e) ((if_pos c5).symm.trans e)
    replace e := (if_neg c5).symm.trans e
    by_cases c6 : r.verb = codes "updtr_match_add"
    · exact (fun e => by exact sound_updtrMatch h e) ((if_pos c6).symm.trans e)
    replace e := (if_neg c6).symm.trans e
    by_cases c7 : r.verb = codes "updtr_start"
    · exact (fun e => by exact sound_updtrStart h e) ((if_pos c7).symm.trans e)
    replace e := (if_neg c7).symm.trans e
    by_cases c8 : r.verb = codes "strgp_add"
    · exact (fun e => by exact sound_strgp h e) ((if_pos c8).symm.trans e)
    replace e := (if_neg c8).symm.trans e
    by_cases c9 : r.verb = codes "strgp_prdcr_add"
    · exact (fun e => by exact sound_strgp h e) ((if_pos c9).symm.trans e)
    replace e := (if_neg c9).symm.trans e
    by_cases c10 : r.verb = codes "strgp_metric_add"
    · exact (fun e => by exact sound_strgp h e) ((if_pos c10).symm.trans e)
    replace e := (if_neg c10).symm.trans e
    by_cases c11 : r.verb = codes "strgp_start"
    · exact (fun e => by exact sound_strgp h e) ((if_pos c11).symm.trans e)
    replace e := (if_neg c11).symm.trans e
    exact nomatch e

theorem sound_events : ∀ (es : List CfgFile.Ev) {d d' : Daemon}, Sound d → evLines w d es = .ok d' → Sound d'
  | [], d, d', h, e => by
    have e := Except.ok.inj e
    subst e
    exact h
  | .overrun :: _, d, d', _, e => nomatch e
  | .line _ t :: es, d, d', h, e => by
    unfold evLines at e
    split at e
    · exact nomatch e
    · rename_i d1 he
      exact sound_events es (sound_exec h he) e

/-- **C78.**  Whatever the file says, if it is read to the end, names are unique, no producer has a stream twice, and updaters have
producers that are there, none twice. -/
theorem any_file_sound (w : World) (text : List Char) (d' : Daemon) (h : reload w text = .ok d') : Sound d' :=
  sound_events _ ⟨by decide, by simp [fresh], by decide, by simp [fresh]⟩ h

/-- the file of the case above is read to the end -/
example : ∃ d', reload w0 (dumpFile (codes "/etc/dump/node-411.conf") d0) = .ok d' ∧ d'.prds.map (·.name) = [codes "n1", codes "n2"] := by
  obtain ⟨d', h1, h2⟩ := reload_again_partial w0 (codes "/etc/dump/node-411.conf") d0 ⟨by decide +kernel, by decide +kernel⟩ fine_d0 lines_d0
  refine ⟨d', h1, ?_⟩
  rw [h2.prds]
  decide +kernel

end Verif.Dump
