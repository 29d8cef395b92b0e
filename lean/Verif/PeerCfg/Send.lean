import Verif.PeerCfg.Spec
import Verif.Dump.Exec

/-!
# Proofs: what the messages of one object make
-/

namespace Verif.PeerCfg

open Verif.SetOwner (Str strtol u32 dec oct numeral)
open Verif.NameTab (codes)
open Verif.Dump (eqi us ld toC ofC)
open Verif.Strgp (Pol Sel Who)

/-! ## numbers -/

theorem strtol_neg (n : Nat) (h : n < 2 ^ 63) : (strtol 10 (45 :: dec n)).value = -(n : Int) := by
  obtain ⟨d, s, h1, h3, _⟩ := SetOwner.numeral_head 10 (by omega) (by omega) n
  have hv := SetOwner.digits_numeral 10 (by omega) (by omega) n 0 []
  rw [List.append_nil, SetOwner.digits_stop (SetOwner.stops_nil 10)] at hv
  simp only [Nat.zero_mul, Nat.zero_add] at hv
  rw [show dec n = numeral 10 n from rfl]
  rw [h1] at hv ⊢
  have hs : SetOwner.isSpace 45 = false := by decide
  unfold strtol
  simp only [List.dropWhile_cons, hs, Bool.false_eq_true, if_false, List.head?_cons, List.tail_cons, true_or, if_true]
  have hp : SetOwner.prefixed 10 ((48 + d) :: s) = (10, (48 + d) :: s) := by unfold SetOwner.prefixed; rw [if_neg (by omega)]
  rw [hp]
  simp only [SetOwner.digit_num (by omega) h3, Option.isNone_some, Bool.false_eq_true, if_false, hv]
  rw [if_neg (by omega), if_neg (by omega)]

theorem strtol_ten (n : Nat) (h : n < 2 ^ 63) : (strtol 10 (dec n)).value = n := by
  have h1 := SetOwner.strtol_based 10 (by omega) (by omega) 0 n [] (SetOwner.stops_nil 10)
  rw [List.append_nil, List.replicate_zero, List.nil_append] at h1
  rw [show dec n = numeral 10 n from rfl, h1, SetOwner.ranged_small h]

theorem atol_ld (i : Int) (h : i.natAbs < 2 ^ 63) : atol (ld i) = i := by
  unfold atol ld
  split
  · rw [strtol_neg _ h]; omega
  · rw [strtol_ten _ h]; omega

theorem i32_small {i : Int} (h : -(2 ^ 31) ≤ i ∧ i < 2 ^ 31) : i32 i = i := by
  unfold i32
  rw [Int.emod_eq_of_lt (by omega) (by omega)]
  omega

theorem atoi_ld (i : Int) (h : -(2 ^ 31) ≤ i ∧ i < 2 ^ 31) : atoi (ld i) = i := by
  unfold atoi
  rw [atol_ld i (by omega), i32_small h]

theorem atoi_dec (n : Nat) (h : n < 2 ^ 31) : atoi (dec n) = n := by
  have := atoi_ld n (by omega)
  rwa [Dump.ld_nat] at this

theorem strtoul_dec (n : Nat) (h : n < 2 ^ 32) : strtoul (dec n) = n := by
  unfold strtoul
  rw [Dump.strtol_val n (by omega), SetOwner.u32_small h]

theorem prefixed_zero (s : Str) (h : ∀ x r, s = x :: r → x ≠ 120 ∧ x ≠ 88) : SetOwner.prefixed 0 (48 :: s) = (8, 48 :: s) := by
  unfold SetOwner.prefixed
  rw [if_pos rfl]
  match s, h with
  | [], _ => rfl
  | [x], _ => rfl
  | x :: c :: r, h =>
    have := h x (c :: r) rfl
    simp [this.1, this.2]

theorem strtoul_octal (n : Nat) (h : n < 2 ^ 32) : strtoul (octal n) = n := by
  unfold octal
  split
  · rename_i h0; subst h0; decide +kernel
  · obtain ⟨d, s, h1, h3, _⟩ := SetOwner.numeral_head 8 (by omega) (by omega) n
    have hv := SetOwner.digits_numeral 8 (by omega) (by omega) n 0 []
    rw [List.append_nil, SetOwner.digits_stop (SetOwner.stops_nil 8)] at hv
    simp only [Nat.zero_mul, Nat.zero_add] at hv
    rw [show oct n = numeral 8 n from rfl]
    unfold strtoul
    have key : (strtol 0 (48 :: numeral 8 n)).value = n := by
      have e := SetOwner.strtol_digit 0 0 (numeral 8 n) (by omega)
      have hp := prefixed_zero (numeral 8 n) (by
        intro x r e; rw [h1] at e; injection e with e _; omega)
      rw [show (48 + 0 : Nat) = 48 from rfl, hp] at e
      have h48 : SetOwner.digit 8 48 = some 0 := by decide
      have hd : SetOwner.digits 8 0 (48 :: numeral 8 n) = (n, []) := by
        simp only [SetOwner.digits, h48]
        rw [Nat.zero_mul, Nat.zero_add]
        exact hv
      rw [e]
      simp only [h48, Option.isNone_some, Bool.false_eq_true, if_false, hd]
      rw [if_neg (by omega), if_neg (by omega)]
    rw [key, SetOwner.u32_small h]

/-! ## values -/

theorem expand_text (w : World) {v : Str} (h : Text v) : expand w v = some v := Dump.expand_self w.toWorld v h.bytes h.noVar

/-- bytes below `{` -/
theorem low_text {v : Str} (h : ∀ b ∈ v, b < 123) : Text v := by
  refine ⟨fun b hb => by have := h b hb; omega, fun a b e => ?_⟩
  have := h 123 (by rw [e]; simp)
  omega

theorem numeral_low (base n : Nat) (h2 : 2 ≤ base) (hb : base ≤ 10) : ∀ b ∈ numeral base n, b < 123 := by
  induction n using Nat.strongRecOn with
  | ind n ih =>
    unfold numeral
    split
    · rename_i h; intro b hb'; simp at hb'; have := h.resolve_right (by omega); omega
    · intro b hb'
      rw [List.mem_append] at hb'
      rcases hb' with hb' | hb'
      · exact ih _ (Nat.div_lt_self (by omega) (by omega)) b hb'
      · simp at hb'; have := Nat.mod_lt n (show 0 < base by omega); omega

theorem dec_text (n : Nat) : Text (dec n) := low_text (numeral_low 10 n (by omega) (by omega))

theorem ld_text (i : Int) : Text (ld i) := by
  refine low_text ?_
  unfold ld
  split
  · intro b hb
    rw [List.mem_cons] at hb
    rcases hb with rfl | hb
    · omega
    · exact numeral_low 10 _ (by omega) (by omega) b hb
  · exact numeral_low 10 _ (by omega) (by omega)

theorem octal_text (n : Nat) : Text (octal n) := by
  refine low_text ?_
  unfold octal
  split
  · simp
  · intro b hb
    rw [List.mem_cons] at hb
    rcases hb with rfl | hb
    · omega
    · exact numeral_low 8 _ (by omega) (by omega) b hb

theorem active_text : Text (codes "active") := low_text (by decide +kernel)
theorem passive_text : Text (codes "passive") := low_text (by decide +kernel)
theorem inst_text : Text (codes "inst") := low_text (by decide +kernel)
theorem schema_text : Text (codes "schema") := low_text (by decide +kernel)
theorem onpush_text : Text (codes "onpush") := low_text (by decide +kernel)
theorem onchange_text : Text (codes "onchange") := low_text (by decide +kernel)
theorem false_text : Text (codes "false") := low_text (by decide +kernel)

theorem peerName_eq {n : Str} (h : Name n) : peerName n = 35 :: n := by
  unfold peerName
  apply List.take_of_length_le
  have := h.short
  simp; omega

theorem peer_text {n : Str} (h : Name n) : Text (35 :: n) := by
  refine ⟨fun b hb => ?_, fun a b e => ?_⟩
  · rw [List.mem_cons] at hb
    rcases hb with rfl | hb
    · omega
    · exact h.text.bytes b hb
  · cases a with
    | nil => simp at e
    | cons x a => injection e with _ e; exact h.text.noVar a b e

theorem isPeer_cons (n : Str) : isPeer (35 :: n) = true := rfl

theorem isPeer_iff (n : Str) : isPeer n = true ↔ FromPeer n := by
  simp [isPeer, FromPeer]

theorem not_isPeer (n : Str) : (!isPeer n) = decide (¬ FromPeer n) := by
  by_cases h : FromPeer n
  · simp [h, (isPeer_iff n).2 h]
  · have : isPeer n = false := by rw [← Bool.not_eq_true, isPeer_iff]; exact h
    simp [h, this]

/-- a message about an object -/
theorem receive_named {w : World} {d : Daemon} {n : Str} (what : What) (as : List (Attr × Str)) (h : Name n) :
    receive w d ⟨what, some (peerName n), as⟩ = (match what with
      | .prdcr => prdcrMsg w d (35 :: n) ⟨what, some (peerName n), as⟩
      | .updtr => updtrMsg w d (35 :: n) ⟨what, some (peerName n), as⟩
      | .strgp => polMsg w d (35 :: n) ⟨what, some (peerName n), as⟩) := by
  unfold receive
  dsimp only [Option.bind_some]
  rw [peerName_eq h, expand_text w (peer_text h)]
  dsimp only
  rw [if_pos (isPeer_cons n)]
  cases what <;> rfl

theorem receiveAll_append (w : World) : ∀ (ms ns : List Msg) (d : Daemon), receiveAll w d (ms ++ ns) =
    (match receiveAll w d ms with | .error e => .error e | .ok d => receiveAll w d ns)
  | [], ns, d => rfl
  | m :: ms, ns, d => by
    rw [List.cons_append, receiveAll, receiveAll]
    cases receive w d m with
    | error e => rfl
    | ok d' => exact receiveAll_append w ms ns d'

/-! ## a producer -/

theorem set_last_prdcr {d : Daemon} {n : Str} {q : Prdcr} {f : Prdcr → Prdcr} (hn : ∀ p ∈ d.prds, p.name ≠ n) (hq : q.name = n) :
    ({ d with prds := d.prds ++ [q] } : Daemon).setPrdcr n f = { d with prds := d.prds ++ [f q] } := by
  unfold Daemon.setPrdcr
  have : d.prds.map (fun p => if p.name = n then f p else p) = d.prds := by
    conv => rhs; rw [← List.map_id d.prds]
    exact List.map_congr_left fun p hp => by rw [if_neg (hn p hp)]; rfl
  simp only [List.map_append, List.map_cons, List.map_nil, this, hq, if_true]

theorem streams_made (w : World) (n : Str) (h : Name n) : ∀ (ss : List Str) (d : Daemon) (q : Prdcr), (∀ s ∈ ss, Text s) →
    (q.streams ++ ss).Nodup → (∀ p ∈ d.prds, p.name ≠ 35 :: n) → q.name = 35 :: n →
    receiveAll w { d with prds := d.prds ++ [q] } (ss.map fun s => ⟨.prdcr, some (peerName n), [(.stream, s)]⟩) =
      .ok { d with prds := d.prds ++ [{ q with streams := ss.reverse ++ q.streams }] }
  | [], d, q, _, _, _, _ => rfl
  | s :: ss, d, q, ht, hd, hn, hq => by
    rw [List.map_cons, receiveAll, receive_named .prdcr _ h]
    dsimp only
    unfold prdcrMsg
    rw [if_pos (by simp [hq])]
    dsimp only
    rw [set_last_prdcr hn hq]
    have hs : s ∉ q.streams := fun hh => by
      have := List.nodup_append.1 hd
      exact this.2.2 s hh s (by simp) rfl
    have e : prdcrOld w ⟨.prdcr, some (peerName n), [(.stream, s)]⟩ q = { q with streams := s :: q.streams } := by
      unfold prdcrOld
      have h1 : Msg.get w ⟨.prdcr, some (peerName n), [(.stream, s)]⟩ .interval = none := rfl
      have h2 : Msg.get w ⟨.prdcr, some (peerName n), [(.stream, s)]⟩ .stream = some s := expand_text w (ht s (by simp))
      rw [h1, h2]
      dsimp only
      rw [if_neg hs]
    rw [e]
    refine (streams_made w n h ss d { q with streams := s :: q.streams } (fun x hx => ht x (by simp [hx])) (by
      have : (q.streams ++ s :: ss).Perm (s :: q.streams ++ ss) := List.perm_middle
      exact this.nodup_iff.1 hd) hn hq).trans ?_
    simp

theorem prdcr_made {w : World} {p : Prdcr} (d : Daemon) (h : FinePrdcr w p) (ha : codes "DEFAULT" ∈ w.auths)
    (hn : ∀ q ∈ d.prds, q.name ≠ 35 :: p.name) : receiveAll w d (sendPrdcr p) = .ok { d with
      prds := d.prds ++ [prdcrPeer p]
      peerPrds := d.peerPrds ++ [(35 :: p.name, false)] } := by
  unfold sendPrdcr
  rw [receiveAll, receive_named .prdcr _ h.name]
  dsimp only
  unfold prdcrMsg
  rw [if_neg (by simpa using hn)]
  have ht : Text (if p.kind = .active then codes "active" else codes "passive") := by
    split
    · exact active_text
    · exact passive_text
  unfold prdcrNew owner
  simp only [Msg.get, List.find?, decide_true, decide_false, reduceCtorEq, expand_text w h.host, expand_text w h.xprt,
    expand_text w (dec_text _), expand_text w (ld_text _), expand_text w (octal_text _), expand_text w ht, Option.map_some,
    Option.getD_some, Option.getD_none]
  have hk : (if eqi (if p.kind = .active then codes "active" else codes "passive") "passive" = true then Kind.passive else Kind.active)
      = (if p.kind = .active then .active else .passive) := by
    by_cases c : p.kind = .active
    · rw [if_pos c, if_pos c, if_neg (by decide +kernel)]
    · rw [if_neg c, if_neg c, if_pos (by decide +kernel)]
  have hp : (atoi (dec p.port) % 65536).toNat = p.port := by
    have := h.port
    rw [atoi_dec _ (by omega), Int.emod_eq_of_lt (by omega) (by omega)]; omega
  have hr : u32 p.rail = p.rail.toNat := by
    have := h.rail
    unfold u32
    rw [Int.emod_eq_of_lt (by omega) (by omega)]
  rw [hk, hp, if_neg (by have := h.port; omega), if_neg (by simp [h.resolved]), if_neg (by simp [ha])]
  rw [strtoul_dec _ h.ids.1, strtoul_dec _ h.ids.2.1, strtoul_octal _ h.ids.2.2, atoi_ld _ (by have := h.reconnect; omega), hr,
    atoi_dec _ (by have := h.rail; omega), atol_ld _ h.limits.1, atol_ld _ h.limits.2]
  dsimp only
  have : ((p.rail.toNat : Nat) : Int) = p.rail := by have := h.rail; omega
  rw [this]
  refine (streams_made w p.name h.name p.streams { d with peerPrds := d.peerPrds ++ [(35 :: p.name, false)] }
    { prdcrPeer p with streams := [] } h.stream h.distinct hn rfl).trans ?_
  simp only [List.append_nil]
  rfl

theorem prdcrs_made {w : World} (ha : codes "DEFAULT" ∈ w.auths) : ∀ (ps : List Prdcr) (d : Daemon), (∀ p ∈ ps, FinePrdcr w p) →
    (ps.map (·.name)).Nodup → (∀ p ∈ ps, ∀ q ∈ d.prds, q.name ≠ 35 :: p.name) →
    receiveAll w d (ps.flatMap sendPrdcr) = .ok { d with
      prds := d.prds ++ ps.map prdcrPeer
      peerPrds := d.peerPrds ++ ps.map fun p => (35 :: p.name, false) }
  | [], d, _, _, _ => by simp [receiveAll]
  | p :: ps, d, h, hd, hn => by
    rw [List.map_cons, List.nodup_cons] at hd
    rw [List.flatMap_cons, receiveAll_append, prdcr_made d (h p (by simp)) ha (hn p (by simp))]
    dsimp only
    rw [prdcrs_made ha ps _ (fun q hq => h q (by simp [hq])) hd.2 (by
      intro q hq r hr
      dsimp only at hr
      rw [List.mem_append, List.mem_singleton] at hr
      rcases hr with hr | rfl
      · exact hn q (by simp [hq]) r hr
      · intro e
        simp only [prdcrPeer, List.cons.injEq, true_and] at e
        exact hd.1 (by rw [e]; exact List.mem_map_of_mem hq))]
    simp

end Verif.PeerCfg
