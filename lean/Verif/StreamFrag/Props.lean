import Verif.StreamFrag.Model

/-!
# Properties of stream messages on the wire (C17)
-/

namespace Verif.StreamFrag

theorem header_length {junk : List Nat} {m : Msg} (hj : junk.length = 8) (hs : m.src.length = 20) :
    (header junk m).length = hdrLen := by
  simp [header, beBytes_length, hj, hs, hdrLen]

/-- a message fits one request: header, name with its NUL and data together, and no empty data right after a
request that is exactly full -/
def Fits (amax : Nat) (m : Msg) : Prop :=
  hdrLen + (m.name.length + 1) + m.data.length ≤ amax ∧
    (0 < m.data.length ∨ hdrLen + (m.name.length + 1) < amax)

/-- a message that fits is sent as one request holding the whole message -/
theorem publish_fits {amax : Nat} {junk : List Nat} {m : Msg} {fuel : Nat} (hj : junk.length = 8)
    (hs : m.src.length = 20) (hf : Fits amax m) (hfu : 4 ≤ fuel) :
    publish amax junk fuel m =
      some [⟨m.src, m.gn, false, true, header junk m ++ (m.name ++ [0]) ++ m.data⟩] := by
  obtain ⟨k, rfl⟩ : ∃ k, fuel = k + 4 := ⟨fuel - 4, by omega⟩
  have hl := header_length (m := m) hj hs
  obtain ⟨h1, h2⟩ := hf
  unfold publish
  generalize hh : header junk m = hd at *
  have e0 : hdrLen = 56 := rfl
  rw [partSend]
  simp only [List.length_nil, Nat.sub_zero, List.nil_append]
  rw [if_neg (by omega), if_pos (by omega), partSend]
  simp only [List.length_append, List.length_cons, List.length_nil]
  rw [if_neg (by omega), if_pos (by omega), partSend]
  simp only [List.length_append, List.length_cons, List.length_nil]
  rw [if_neg (by omega), if_pos (by omega), partSend]

theorem drop_prefix {a b : List Nat} {n : Nat} (h : a.length = n) : (a ++ b).drop n = b := by
  subst h; simp

theorem take_prefix {a b : List Nat} {n : Nat} (h : a.length = n) : (a ++ b).take n = a := by
  subst h; simp

theorem takeWhile_name : ∀ {n : List Nat} {r : List Nat}, 0 ∉ n →
    (n ++ [0] ++ r).takeWhile (· ≠ 0) = n := by
  intro n
  induction n with
  | nil => intro r _; simp
  | cons a n ih =>
    intro r h
    simp only [List.mem_cons, not_or] at h
    have ha : a ≠ 0 := fun hc => h.1 hc.symm
    simp only [List.cons_append, List.takeWhile_cons]
    rw [if_pos (by simpa using ha), ih h.2]

/-- the fields of the header, read back -/
theorem header_fields {junk rest : List Nat} {m : Msg} (hj : junk.length = 8) (hm : m.Ok) :
    beVal (((header junk m ++ rest).drop 24).take 8) = m.gn ∧
    beVal (((header junk m ++ rest).drop 32).take 4) = m.name.length + 1 + m.data.length ∧
    beVal (((header junk m ++ rest).drop 36).take 4) = m.type ∧
    beVal (((header junk m ++ rest).drop 40).take 4) = m.uid ∧
    beVal (((header junk m ++ rest).drop 44).take 4) = m.gid ∧
    beVal (((header junk m ++ rest).drop 48).take 4) = m.perm := by
  have hs := hm.src
  have field : ∀ (p : List Nat) (k v : Nat) (q : List Nat) (off : Nat), p.length = off → v < 256 ^ k →
      beVal (((p ++ (beBytes k v ++ q)).drop off).take k) = v := by
    intro p k v q off hp hv
    rw [drop_prefix hp, take_prefix (beBytes_length k v), beVal_beBytes k v hv]
  have t4 : (junk.take 4).length = 4 := by simp [hj]
  unfold header
  generalize hL : m.name.length + 1 + m.data.length = L
  have hlen := hm.len
  rw [hL] at hlen
  generalize junk.take 4 = j4 at *
  generalize (junk.drop 4).take 4 = j8 at *
  refine ⟨?_, ?_, ?_, ?_, ?_, ?_⟩
  · have := field (m.src ++ j4) 8 m.gn (beBytes 4 L ++ beBytes 4 m.type ++ beBytes 4 m.uid ++
      beBytes 4 m.gid ++ beBytes 4 m.perm ++ j8 ++ rest) 24 (by simp [hs, t4]) hm.gn
    simpa only [List.append_assoc] using this
  · have := field (m.src ++ j4 ++ beBytes 8 m.gn) 4 L (beBytes 4 m.type ++ beBytes 4 m.uid ++
      beBytes 4 m.gid ++ beBytes 4 m.perm ++ j8 ++ rest) 32 (by simp [hs, t4, beBytes_length]) hlen
    simpa only [List.append_assoc] using this
  · have := field (m.src ++ j4 ++ beBytes 8 m.gn ++ beBytes 4 L) 4 m.type (beBytes 4 m.uid ++
      beBytes 4 m.gid ++ beBytes 4 m.perm ++ j8 ++ rest) 36 (by simp [hs, t4, beBytes_length]) hm.type
    simpa only [List.append_assoc] using this
  · have := field (m.src ++ j4 ++ beBytes 8 m.gn ++ beBytes 4 L ++ beBytes 4 m.type) 4 m.uid (
      beBytes 4 m.gid ++ beBytes 4 m.perm ++ j8 ++ rest) 40 (by simp [hs, t4, beBytes_length]) hm.uid
    simpa only [List.append_assoc] using this
  · have := field (m.src ++ j4 ++ beBytes 8 m.gn ++ beBytes 4 L ++ beBytes 4 m.type ++ beBytes 4 m.uid) 4
      m.gid (beBytes 4 m.perm ++ j8 ++ rest) 44 (by simp [hs, t4, beBytes_length]) hm.gid
    simpa only [List.append_assoc] using this
  · have := field (m.src ++ j4 ++ beBytes 8 m.gn ++ beBytes 4 L ++ beBytes 4 m.type ++ beBytes 4 m.uid ++
      beBytes 4 m.gid) 4 m.perm (j8 ++ rest) 48 (by simp [hs, t4, beBytes_length]) hm.perm
    simpa only [List.append_assoc] using this

/-- parsing the whole message gives back every field -/
theorem parse_whole {junk : List Nat} {m : Msg} (hj : junk.length = 8) (hm : m.Ok) :
    parse m.src (header junk m ++ (m.name ++ [0]) ++ m.data) = m := by
  have hl := header_length (m := m) hj hm.src
  have hf := header_fields (rest := (m.name ++ [0]) ++ m.data) hj hm
  rw [← List.append_assoc] at hf
  obtain ⟨f1, f2, f3, f4, f5, f6⟩ := hf
  unfold parse
  rw [f1, f2, f3, f4, f5, f6]
  have hb : (header junk m ++ (m.name ++ [0]) ++ m.data).drop hdrLen = m.name ++ [0] ++ m.data := by
    rw [List.append_assoc, drop_prefix hl]
  simp only [hb]
  rw [takeWhile_name hm.nul]
  have h2 : (m.name ++ [0] ++ m.data).drop (m.name.length + 1) = m.data := by
    apply drop_prefix; simp
  rw [h2, show m.name.length + 1 + m.data.length - (m.name.length + 1) = m.data.length from by omega,
    List.take_length]

/-- publish the messages one after the other and receive all requests in order -/
def transfer (amax : Nat) (junk pad : List Nat) (fuel : Nat) :
    List Sbuf → List Msg → Option (List Sbuf × List Msg)
  | t, [] => some (t, [])
  | t, m :: ms =>
    match publish amax junk fuel m with
    | none => none
    | some fs =>
      match receiveAll pad t fs with
      | none => none
      | some (t', d) => (transfer amax junk pad fuel t' ms).map (fun r => (r.1, d ++ r.2))

/-- **C17, partial.** Any sequence of messages that each fit one request arrives whole: the receiver delivers
exactly those messages, in order, each once, with name, data, type, credential, permission and sequence number
as published, and keeps nothing behind.
Missing: messages that do not fit one request; they are never delivered
(`stream_large_message_never_delivered_defect`). -/
theorem stream_delivered_partial (amax : Nat) (junk pad : List Nat) (fuel : Nat) (ms : List Msg)
    (hj : junk.length = 8) (hfu : 4 ≤ fuel) (hok : ∀ m ∈ ms, m.Ok) (hfit : ∀ m ∈ ms, Fits amax m) :
    transfer amax junk pad fuel [] ms = some ([], ms) := by
  induction ms with
  | nil => rfl
  | cons m ms ih =>
    have hm := hok m List.mem_cons_self
    have hl := header_length (m := m) hj hm.src
    have hf := header_fields (rest := (m.name ++ [0]) ++ m.data) hj hm
    rw [← List.append_assoc] at hf
    have hp := parse_whole hj hm
    simp only [transfer]
    rw [publish_fits hj hm.src (hfit m List.mem_cons_self) hfu]
    have hlen : (header junk m ++ (m.name ++ [0]) ++ m.data).length =
        m.name.length + 1 + m.data.length + hdrLen := by simp [hl]; omega
    have hr : receiveAll pad [] [⟨m.src, m.gn, false, true, header junk m ++ (m.name ++ [0]) ++ m.data⟩] =
        some ([], [m]) := by
      have hf2 := hf.2.1
      generalize header junk m ++ (m.name ++ [0]) ++ m.data = whole at *
      simp only [receiveAll, receive, List.find?_nil, hf2, hlen, collect]
      rw [if_neg (by simp), if_neg (by omega)]
      simp [hp, hlen]
    simp only [hr]
    rw [ih (fun x hx => hok x (List.mem_cons_of_mem _ hx)) (fun x hx => hfit x (List.mem_cons_of_mem _ hx))]
    rfl

/-- a stream message "hi" on stream "s" -/
def demo : Msg := ⟨List.replicate 20 1, 7, 0, 1000, 100, 0o777, [115], [104, 105]⟩
example : demo.Ok := ⟨by decide, by decide, by decide, by decide, by decide, by decide, by decide, by decide⟩
example : Fits 200 demo := by unfold Fits; decide
example : transfer 200 (List.replicate 8 170) (List.replicate 4 85) 10 [] [demo, demo] = some ([], [demo, demo]) :=
  by decide +kernel

/-! ## Fragmented messages -/

/-- the two halves of the sequence number agree; true of 0, 2^32+1, ... only -/
def Degenerate (gn : Nat) : Prop := gn / 2 ^ 32 = gn % 2 ^ 32

/-- the key of a buffer never equals the key looked up for a later fragment of the same message -/
theorem key_ne {b : Sbuf} {f : Frag} (hp : b.pad.length = 4) (hs : b.src = f.src)
    (hg : b.gn = f.gn) (hgn : f.gn < 256 ^ 8) (hd : ¬ Degenerate f.gn) : b.key ≠ f.key := by
  intro h
  apply hd
  unfold Sbuf.key Frag.key at h
  rw [hs, hg] at h
  rw [List.append_assoc, List.append_assoc] at h
  have h1 := List.append_cancel_left h
  rw [leBytes_split 4 4 f.gn, List.append_assoc] at h1
  -- padding against the low half, then the low half against the high half
  have h2 := List.append_inj h1 (by simp [hp, leBytes_length])
  have h3 := (List.append_inj h2.2 (by simp [leBytes_length])).1
  rw [← leBytes_mod 4 f.gn] at h3
  have h4 := leBytes_inj 4 _ _ (Nat.mod_lt _ (by decide)) (Nat.div_lt_of_lt_mul (by omega)) h3
  unfold Degenerate
  exact h4.symm

/-- **Defect (receiver).** Whatever the message and however it was cut into two or more fragments, the
receiver aborts on the second one, because the key it looks up is laid out differently from the key in the
tree.  Stated for the state after any first fragment; sequence numbers with equal halves (0, 2^32+1, ...)
are excepted. -/
theorem stream_second_fragment_aborts_defect (pad : List Nat) (f1 f2 : Frag) (rest : List Frag)
    (hp : pad.length = 4) (hgn : f1.gn < 256 ^ 8) (hd : ¬ Degenerate f1.gn)
    (h1 : f1.first = true) (hm : f1.more = true) (h2 : f2.first = false) (hsrc : f2.src = f1.src)
    (hg : f2.gn = f1.gn) : receiveAll pad [] (f1 :: f2 :: rest) = none := by
  simp only [receiveAll]
  cases hr : receive pad [] f1 with
  | none => rfl
  | some r =>
    obtain ⟨t, d⟩ := r
    simp only
    have ht : ∃ b : Sbuf, t = [b] ∧ b.src = f1.src ∧ b.pad = pad ∧ b.gn = f1.gn := by
      simp only [receive, List.find?_nil, h1] at hr
      split at hr
      · cases hr
      · split at hr
        · cases hr
        · simp only [collect, hm, if_true] at hr
          split at hr
          · cases hr
          · injection hr with hr
            injection hr with hr _
            exact ⟨_, hr.symm, rfl, rfl, rfl⟩
    obtain ⟨b, rfl, hb1, hb2, hb3⟩ := ht
    have hne : b.key ≠ f2.key :=
      key_ne (by rw [hb2]; exact hp) (by rw [hb1, hsrc]) (by rw [hb3, hg])
        (by rw [hg]; exact hgn) (by rw [hg]; exact hd)
    have : receive pad [b] f2 = none := by
      simp only [receive, List.find?_cons, List.find?_nil, hne, decide_false, h2, if_true]
    rw [this]; rfl

theorem partSend_head {amax gn : Nat} {src : List Nat} : ∀ (fuel : Nat) (first fill : Bool) (buf : List Nat)
    (ps : List (List Nat)) (fs : List Frag), partSend amax src gn fuel first fill buf ps = some fs →
    ∃ f rest, fs = f :: rest ∧ f.first = first ∧ f.src = src ∧ f.gn = gn := by
  intro fuel
  induction fuel with
  | zero => intro first fill buf ps fs h; simp [partSend] at h
  | succ fuel ih =>
    intro first fill buf ps fs h
    cases ps with
    | nil =>
      simp only [partSend, Option.some.injEq] at h
      exact ⟨_, _, h.symm, rfl, rfl, rfl⟩
    | cons d ps =>
      simp only [partSend] at h
      split at h
      · rw [Option.map_eq_some_iff] at h
        obtain ⟨r, _, rfl⟩ := h
        exact ⟨_, _, rfl, rfl, rfl, rfl⟩
      · split at h
        · exact ih _ _ _ _ _ h
        · rw [Option.map_eq_some_iff] at h
          obtain ⟨r, _, rfl⟩ := h
          exact ⟨_, _, rfl, rfl, rfl, rfl⟩

/-- an unfinished parameter longer than a whole request is sent again and again -/
theorem partSend_loops {amax gn : Nat} {src d : List Nat} {ps : List (List Nat)} (hd : amax < d.length) :
    ∀ (fuel : Nat) (first : Bool), partSend amax src gn fuel first true [] (d :: ps) = none := by
  intro fuel
  induction fuel with
  | zero => intro first; rfl
  | succ fuel ih =>
    intro first
    simp only [partSend, List.length_nil, Nat.sub_zero]
    rw [if_neg (by simp), if_neg (by omega), ih]
    rfl

/-- **Defect (sender).** If the data is longer than the room in a request (and header and name leave some
room), the publisher never finishes: it sends the same leading bytes for ever. -/
theorem stream_large_message_loops_defect (amax : Nat) (junk : List Nat) (m : Msg) (hj : junk.length = 8)
    (hs : m.src.length = 20) (hn : hdrLen + (m.name.length + 1) < amax) (hd : amax < m.data.length) :
    ∀ fuel, publish amax junk fuel m = none := by
  have hl := header_length (m := m) hj hs
  intro fuel
  unfold publish
  generalize header junk m = hdr at *
  match fuel with
  | 0 => rfl
  | 1 =>
    simp only [partSend, List.length_nil, Nat.sub_zero, List.nil_append]
    rw [if_neg (by omega), if_pos (by omega)]
  | 2 =>
    simp only [partSend, List.length_nil, Nat.sub_zero, List.nil_append]
    rw [if_neg (by omega), if_pos (by omega)]
    simp only [List.length_append, List.length_cons, List.length_nil]
    rw [if_neg (by omega), if_pos (by omega)]
  | fuel + 3 =>
    rw [partSend]
    simp only [List.length_nil, Nat.sub_zero, List.nil_append]
    rw [if_neg (by omega), if_pos (by omega), partSend]
    simp only [List.length_append, List.length_cons, List.length_nil]
    rw [if_neg (by omega), if_pos (by omega), partSend]
    simp only [List.length_append, List.length_cons, List.length_nil]
    rw [if_neg (by omega), if_neg (by omega), partSend_loops hd]
    rfl

/-- **Defect (end to end).** A message that does not fit one request is never delivered: either the publisher
never finishes, or the receiver aborts on what it sends. -/
theorem stream_large_message_never_delivered_defect (amax : Nat) (junk pad : List Nat) (m : Msg)
    (hj : junk.length = 8) (hp : pad.length = 4) (hm : m.Ok) (hgn : ¬ Degenerate m.gn)
    (hn : hdrLen + (m.name.length + 1) < amax)
    (hbig : amax < hdrLen + (m.name.length + 1) + m.data.length) :
    ∀ fuel fs, publish amax junk fuel m = some fs → receiveAll pad [] fs = none := by
  have hl := header_length (m := m) hj hm.src
  intro fuel fs h
  unfold publish at h
  generalize header junk m = hdr at *
  match fuel with
  | 0 => simp [partSend] at h
  | 1 =>
    simp only [partSend, List.length_nil, Nat.sub_zero, List.nil_append] at h
    rw [if_neg (by omega), if_pos (by omega)] at h
    cases h
  | 2 =>
    simp only [partSend, List.length_nil, Nat.sub_zero, List.nil_append] at h
    rw [if_neg (by omega), if_pos (by omega)] at h
    simp only [List.length_append, List.length_cons, List.length_nil] at h
    rw [if_neg (by omega), if_pos (by omega)] at h
    cases h
  | fuel + 3 =>
    rw [partSend] at h
    simp only [List.length_nil, Nat.sub_zero, List.nil_append] at h
    rw [if_neg (by omega), if_pos (by omega), partSend] at h
    simp only [List.length_append, List.length_cons, List.length_nil] at h
    rw [if_neg (by omega), if_pos (by omega), partSend] at h
    simp only [List.length_append, List.length_cons, List.length_nil] at h
    rw [if_neg (by omega), if_neg (by omega), Option.map_eq_some_iff] at h
    obtain ⟨r, hr, rfl⟩ := h
    obtain ⟨f2, rest, rfl, e1, e2, e3⟩ := partSend_head _ _ _ _ _ _ hr
    exact stream_second_fragment_aborts_defect pad _ f2 rest hp hm.gn hgn rfl rfl e1 e2 e3

/-- a message of 300 bytes with 200 bytes of room per request: header 56, stream name "s", 300 bytes of data -/
example : ∀ fuel, publish 200 (List.replicate 8 0) fuel { demo with data := List.replicate 300 0 } = none :=
  stream_large_message_loops_defect _ _ _ (List.length_replicate ..) (by decide) (by decide)
    (by rw [List.length_replicate]; decide)
example : ¬ Degenerate demo.gn := by unfold Degenerate; decide
/-- 150 bytes of data: two fragments go out, the second repeats the first 142 bytes -/
example : ((publish 200 (List.replicate 8 0) 10 { demo with data := List.range 150 }).map
    (fun fs => fs.map (fun f => (f.first, f.more, f.part.length)))) = some [(true, true, 200), (false, false, 150)] := by
  decide +kernel

end Verif.StreamFrag
