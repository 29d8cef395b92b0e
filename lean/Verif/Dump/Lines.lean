import Verif.Dump.BackPol

/-!
# Proofs: the lines of the file are read as they were written
-/

namespace Verif.Dump

open Verif.SetOwner (Str)
open Verif.NameTab (codes)
open Verif.Strgp (Pol Plug)

variable {w : World}

theorem ln_intro {v : Str} {ws : List Str} (hv : Wd v) (h : ∀ x ∈ ws, Wd x) : Ln (line (v :: ws)) := ⟨v, ws, rfl, wd_cons hv h⟩

theorem prdcr_lines {p : Prdcr} (h : FinePrdcr w p) : ∀ l ∈ dumpPrdcr p, Ln l := by
  intro l hl
  unfold dumpPrdcr at hl
  simp only [List.cons_append, List.mem_cons, List.mem_append] at hl
  rcases hl with rfl | hl | hl
  · exact ln_intro (wd_verb (by decide +kernel)) (prdcrWords_wd h)
  · split at hl
    · rw [List.mem_singleton] at hl
      subst hl
      exact ln_intro (wd_verb (by decide +kernel)) (wd_cons (wd_one h.name (by decide +kernel)) wd_nil)
    · exact nomatch hl
  · obtain ⟨s, hs, rfl⟩ := List.mem_map.1 hl
    exact ln_intro (wd_verb (by decide +kernel)) (wd_cons (wd_one h.name.anchored (by decide +kernel))
      (wd_cons (wd_one (h.stream s hs) (by decide +kernel)) wd_nil))

theorem plug_lines {d : Daemon} (hc : ∀ c ∈ d.conf, FineConf w c) {g : Plug} (hg : Word g.name) : ∀ l ∈ dumpPlug d g, Ln l := by
  intro l hl
  unfold dumpPlug at hl
  rcases List.mem_cons.1 hl with rfl | hl
  · exact ln_intro (wd_verb (by decide +kernel)) (wd_cons (wd_one hg (by decide +kernel)) wd_nil)
  · obtain ⟨c, hx, rfl⟩ := List.mem_map.1 hl
    obtain ⟨hx, hn⟩ := List.mem_filter.1 hx
    have hn : c.plugin = g.name := by simpa using hn
    unfold dumpConf
    rw [confWords_eq (hc c hx), hn]
    exact ln_intro (wd_verb (by decide +kernel)) (wd_cons (wd_one hg (by decide +kernel)) fun x hy => (plugWords_all (hc c hx) x hy).wd)

/-- what the lines of an updater need -/
structure UpdtrText (u : Updtr) : Prop where
  name : Word u.name
  prdcr : ∀ p ∈ u.prdcrs, Word p
  mat : ∀ m ∈ u.mats, Word m.2

theorem updtr_lines {m : List Str} {v : Bool × Nat} (hm : ModeRel m v) {u : Updtr} (h : UpdtrText u) : ∀ l ∈ dumpUpdtr m u, Ln l := by
  intro l hl
  unfold dumpUpdtr at hl
  simp only [List.cons_append, List.mem_cons, List.mem_append] at hl
  rcases hl with rfl | (hl | hl) | hl
  · exact ln_intro (wd_verb (by decide +kernel)) (updtrWords_wd hm h.name)
  · obtain ⟨s, hs, rfl⟩ := List.mem_map.1 hl
    exact ln_intro (wd_verb (by decide +kernel)) (wd_cons (wd_one h.name (by decide +kernel))
      (wd_cons (wd_one (h.prdcr s hs).anchored (by decide +kernel)) wd_nil))
  · obtain ⟨s, hs, rfl⟩ := List.mem_map.1 hl
    refine ln_intro (wd_verb (by decide +kernel)) (wd_cons (wd_one h.name (by decide +kernel)) (wd_cons (wd_one ?_ (by decide +kernel))
      (wd_cons (wd_one (h.mat s hs).anchored (by decide +kernel)) wd_nil)))
    split <;> exact lit_word _ (by decide +kernel)
  · split at hl
    · rw [List.mem_singleton] at hl
      subst hl
      exact ln_intro (wd_verb (by decide +kernel)) (wd_cons (wd_one h.name (by decide +kernel)) wd_nil)
    · exact nomatch hl

theorem updtrs_lines : ∀ (us : List Updtr) {m : List Str} {v : Bool × Nat}, ModeRel m v → (∀ u ∈ us, UpdtrText u) → ∀ l ∈ dumpUpdtrs m us, Ln l
  | [], _, _, _, _, _, hl => nomatch hl
  | u :: us, _, _, hm, h, l, hl => by
    unfold dumpUpdtrs at hl
    rcases List.mem_append.1 hl with hl | hl
    · exact updtr_lines (mode_back hm u) (h u (by simp)) l hl
    · exact updtrs_lines us (mode_back hm u) (fun x hx => h x (by simp [hx])) l hl

theorem pol_lines {gs : List Str} {p : Pol} (h : FinePol w gs p) : ∀ l ∈ dumpPol p, Ln l := by
  intro l hl
  rw [dumpPol_eq] at hl
  simp only [List.cons_append, List.mem_cons, List.mem_append] at hl
  rcases hl with rfl | hl | hl
  · exact ln_intro (wd_verb (by decide +kernel)) (polWords_wd h)
  · obtain ⟨s, hs, rfl⟩ := List.mem_map.1 hl
    exact ln_intro (wd_verb (by decide +kernel)) (wd_cons (wd_one h.name (by decide +kernel))
      (wd_cons (wd_one (h.prdcr s hs).1 (by decide +kernel)) wd_nil))
  · split at hl
    · rw [List.mem_singleton] at hl
      subst hl
      exact ln_intro (wd_verb (by decide +kernel)) (wd_cons (wd_one h.name (by decide +kernel)) wd_nil)
    · exact nomatch hl

/-- everything but the updaters -/
structure FineRest (w : World) (d : Daemon) : Prop where
  prdcr : ∀ p ∈ d.prds, FinePrdcr w p
  prdcrs : (d.prds.map (·.name)).Nodup
  own : ∀ p ∈ d.prds, Own w (d.prds.map (·.name)) p.name
  plug : ∀ g ∈ d.st.plugs, Word g.name ∧ w.plugin g.name = true
  plugs : (d.st.plugs.map (·.name)).Nodup
  conf : ∀ c ∈ d.conf, FineConf w c
  pol : ∀ p ∈ d.st.pols, FinePol w (d.st.plugs.map (·.name)) p

theorem Fine.rest {d : Daemon} (h : Fine w d) : FineRest w d := ⟨h.prdcr, h.prdcrs, h.own, h.plug, h.plugs, h.conf, h.pol⟩

theorem all_lines {d : Daemon} (h : FineRest w d) (hu : ∀ u ∈ d.ups, UpdtrText u) : ∀ l ∈ dumpLines d, Ln l := by
  intro l hl
  unfold dumpLines at hl
  simp only [List.mem_append, List.mem_flatMap] at hl
  rcases hl with ((⟨p, hp, hl⟩ | ⟨g, hg, hl⟩) | hl) | ⟨p, hp, hl⟩
  · exact prdcr_lines (h.prdcr p hp) l hl
  · exact plug_lines h.conf (h.plug g hg).1 l hl
  · exact updtrs_lines _ .none hu l hl
  · exact pol_lines (h.pol p hp) l hl

theorem fine_updtr_text {d : Daemon} (h : FineRest w d) {u : Updtr} (hu : FineUpdtr w (d.prds.map (·.name)) u) : UpdtrText u := by
  refine ⟨hu.name, fun p hp => ?_, fun m hm => (hu.regex m hm).1⟩
  obtain ⟨q, hq, rfl⟩ := List.mem_map.1 (hu.there p hp)
  exact (h.prdcr q hq).name

/-- the lines of producers and plugins -/
theorem first_back {d : Daemon} (h : FineRest w d) :
    ∃ s, runLines w fresh (d.prds.flatMap dumpPrdcr ++ d.st.plugs.flatMap (dumpPlug d)) =
        .ok ⟨d.prds.map (prdcrAgain w), d.st.plugs.flatMap fun g => d.conf.filter fun c => c.plugin = g.name, [], s⟩ ∧
      s.plugs.map (·.name) = (d.st.plugs.map (·.name)).reverse ∧ s.pols = [] := by
  have e1 := prdcrs_back (w := w) (d.prds.map (·.name)) d.prds fresh (fun p hp => ⟨h.prdcr p hp, h.own p hp⟩)
    (by simpa [fresh] using h.prdcrs) (fun n hn => by simpa [fresh] using hn)
  obtain ⟨s, f1, f2, f3⟩ := plugs_back (w := w) d h.conf d.st.plugs { fresh with prds := fresh.prds ++ d.prds.map (prdcrAgain w) } h.plug
    (by simpa [fresh, Strgp.init] using h.plugs)
  refine ⟨s, ?_, ?_, f3⟩
  · rw [runLines_append, e1]
    simp only
    rw [f1]
    simp [fresh]
  · rw [f2]
    simp [fresh, Strgp.init]

theorem again_names (ps : List Prdcr) : (ps.map (prdcrAgain w)).map (·.name) = ps.map (·.name) := by
  rw [List.map_map]
  rfl

theorem reload_all {d : Daemon} (h : Fine w d) : ∃ d', runLines w fresh (dumpLines d) = .ok d' ∧ Again w d d' := by
  obtain ⟨s, e1, e2, e3⟩ := first_back h.rest
  have hu := updtrs_back (w := w) (nm := d.prds.map (·.name)) h.prdcrs (fun p hp => by
      obtain ⟨q, hq, rfl⟩ := List.mem_map.1 hp
      exact ⟨(h.prdcr q hq).name, h.own q hq⟩) d.ups
    ⟨d.prds.map (prdcrAgain w), d.st.plugs.flatMap fun g => d.conf.filter fun c => c.plugin = g.name, [], s⟩ [] (false, 0) .none h.updtr
    (by simpa using h.updtrs) (again_names _)
  obtain ⟨s', f1, f2, f3⟩ := pols_back (w := w) (gs := (d.st.plugs.map (·.name)).reverse) d.st.pols
    ⟨d.prds.map (prdcrAgain w), d.st.plugs.flatMap fun g => d.conf.filter fun c => c.plugin = g.name, updtrsAgain w (false, 0) d.ups, s⟩
    (fun p hp => { h.pol p hp with there := List.mem_reverse.2 (h.pol p hp).there }) e2 (by simpa [e3] using h.pols)
  refine ⟨⟨d.prds.map (prdcrAgain w), d.st.plugs.flatMap fun g => d.conf.filter fun c => c.plugin = g.name,
    updtrsAgain w (false, 0) d.ups, s'⟩, ?_, rfl, f3, rfl, rfl, ?_⟩
  · unfold dumpLines
    rw [runLines_append, runLines_append, e1]
    simp only
    rw [hu]
    simpa using f1
  · simpa [e3] using f2

end Verif.Dump
