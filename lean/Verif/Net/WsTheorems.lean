import Verif.Net.WsDrain
/-
C28-C30: the WebSocket framing.

What peers may send is described by `Frame`, `Frame.bytes` and `oneMessage` (`Verif.Net.WsParse`, after RFC 6455, section 5.2),
independently of the code: any fragmentation, masked or not, any of the three length forms.
-/
namespace Sis.Ws

/-! ### C28: what is packed is unpacked -/

/-- C28 for messages that together with the bytes after them stay under 2^28 bytes.  Missing: text messages without any byte, and
larger input (`C28_empty_text_violated`, `C28_large_violated`).  The tail of a text message is not sent: 0 is delivered. -/
theorem C28_pack_unpack_partial (junk : Nat → UInt8) (tail : UInt8) (msg : Bytes) (h : isBytes tail = true ∨ msg ≠ []) :
    ∃ out, pack junk tail msg = some out ∧ out.length ≤ msg.length + 1 + 10 * ((msg.length + 1) / 16368 + 1) ∧
      ∀ rest, (out ++ rest).length < 2 ^ 28 →
        unpack (out ++ rest) = some (.msg (if isBytes tail then tail else 0) msg rest) := by
  obtain ⟨fs, a1, a2, a3, a4, a5, a6, a7⟩ := pack_spec junk tail msg h
  refine ⟨_, a1, ?_, ?_⟩
  · have key : ∀ gs : List Frame, (∀ f ∈ gs, f.data.length ≤ maxSend + 1 ∧ f.bytes.length ≤ f.data.length + 10) →
        (frameBytes gs).length ≤ ((gs.map Frame.data).flatten).length + 10 * gs.length := by
      intro gs hg
      induction gs with
      | nil => simp [frameBytes]
      | cons f gs ih =>
        have e : frameBytes (f :: gs) = f.bytes ++ frameBytes gs := by simp [frameBytes]
        rw [e, List.length_append, List.map_cons, List.flatten_cons, List.length_append, List.length_cons]
        have h1 := (hg f (by simp)).2
        have h2 := ih fun g hg' => hg g (by simp [hg'])
        omega
    have h1 := key fs a7
    rw [a5, List.length_append] at h1
    have h2 : (if isBytes tail = true then [tail] else []).length ≤ 1 := by split <;> simp
    have h3 : fs.length ≤ (msg.length + 1) / 16368 + 1 := a6
    omega
  · intro rest hb
    rw [unpack_spec _ hb, pack_parse h a1]
    by_cases hbt : isBytes tail = true
    · simp [hbt, answer]
    · simp [hbt, answer]

/-- A binary message of 40000 bytes meets the hypotheses: it is sent as three frames and arrives. -/
example : ∃ out, pack (fun _ => 0) 1 (List.replicate 40000 7) = some out ∧
    unpack (out ++ []) = some (.msg 1 (List.replicate 40000 7) []) := by
  obtain ⟨out, h1, h2, h3⟩ := C28_pack_unpack_partial (fun _ => 0) 1 (List.replicate 40000 7) (.inl (by decide))
  refine ⟨out, h1, ?_⟩
  rw [List.length_replicate] at h2
  have := h3 [] (by rw [List.append_nil]; omega)
  exact this

/-- C28 for any peer that follows the standard: masked or not, fragmented anyhow, with any length form.  A binary message ends with
the tail byte. -/
theorem C28_any_peer_partial (fs : List Frame) (ok : ∀ f ∈ fs, f.Ok) (one : oneMessage fs) (rest : Bytes)
    (hb : (frameBytes fs ++ rest).length < 2 ^ 28) :
    (opOf fs = 1 → unpack (frameBytes fs ++ rest) = some (.msg 0 (fs.map Frame.data).flatten rest)) ∧
    (∀ tail msg, opOf fs = 2 → (fs.map Frame.data).flatten = msg ++ [tail] →
      unpack (frameBytes fs ++ rest) = some (.msg tail msg rest)) ∧
    (opOf fs ≠ 1 → opOf fs ≠ 2 → unpack (frameBytes fs ++ rest) = some (.bad rest)) := by
  rw [unpack_spec _ hb, parse_frames fs ok one]
  refine ⟨fun h => by simp [answer, h], fun tail msg h hd => by simp [answer, h, hd], fun h1 h2 => by simp [answer, h1, h2]⟩

/-- Two masked fragments, as a browser sends them. -/
def browser : List Frame :=
  [⟨false, 0, 1, 0, some [1, 2, 3, 4], [104, 101]⟩, ⟨true, 0, 0, 2, some [9, 8, 7, 6], [108, 108, 111]⟩]

example : (∀ f ∈ browser, f.Ok) ∧ oneMessage browser ∧ opOf browser = 1 ∧ (browser.map Frame.data).flatten = [104, 101, 108, 108, 111] := by
  refine ⟨?_, by simp [browser, oneMessage], rfl, rfl⟩
  intro f hf
  simp only [browser, List.mem_cons, List.not_mem_nil, or_false] at hf
  rcases hf with rfl | rfl
  · exact ⟨by decide, by decide, .inl ⟨rfl, by decide⟩, fun k hk => by cases hk; rfl⟩
  · exact ⟨by decide, by decide, .inr (.inl ⟨rfl, by decide⟩), fun k hk => by cases hk; rfl⟩

/-- Nothing at all is sent for an empty text message: the receiver never sees it. -/
theorem C28_empty_text_violated (junk : Nat → UInt8) : pack junk 0 [] = some [] ∧ unpack [] = some .wait :=
  ⟨rfl, by rw [unpack_spec [] (by decide)]; rfl⟩

/-- A message of 256 MB or a little more is packed, but unpacking it reads outside the input. -/
theorem C28_large_violated (junk : Nat → UInt8) (tail : UInt8) (msg : Bytes) (h1 : 2 ^ 28 ≤ msg.length) (h2 : msg.length < 2 ^ 28 + 2 ^ 27) :
    ∃ out, pack junk tail msg = some out ∧ unpack out = none := by
  obtain ⟨fs, a1, a2, a3, a4, a5, a6, a7⟩ := pack_spec junk tail msg (.inr (by intro h; rw [h] at h1; simp at h1))
  obtain ⟨out, b1, b2, -⟩ := C28_pack_unpack_partial junk tail msg (.inr (by intro h; rw [h] at h1; simp at h1))
  rw [a1] at b1
  injection b1 with b1
  refine ⟨_, a1, ?_⟩
  have hms : maxSend = 16368 := rfl
  match fs, a2, a3, a5, a7 with
  | [], _, one, _, _ => exact absurd one id
  | [f], _, _, hd, sz =>
    have := (sz f (by simp)).1
    simp only [List.map_cons, List.map_nil, List.flatten_cons, List.flatten_nil, List.append_nil] at hd
    rw [hd, List.length_append] at this
    omega
  | f :: g :: gs, ok, one, hd, sz =>
    have hfin : f.fin = false := one.1
    have e : frameBytes (f :: g :: gs) = f.bytes ++ frameBytes (g :: gs) := by simp [frameBytes]
    have hp := parse1_frame f (ok f (by simp)) (frameBytes (g :: gs))
    rw [← e, hfin] at hp
    have big : ∀ gs : List Frame, (∀ f ∈ gs, f.Ok) → ((gs.map Frame.data).flatten).length ≤ (frameBytes gs).length := by
      intro gs ok
      induction gs with
      | nil => simp [frameBytes]
      | cons f gs ih =>
        have e : frameBytes (f :: gs) = f.bytes ++ frameBytes gs := by simp [frameBytes]
        rw [e, List.length_append, List.map_cons, List.flatten_cons, List.length_append]
        have h2 := ih fun g hg' => ok g (by simp [hg'])
        have h1 : f.data.length ≤ f.bytes.length := by
          unfold Frame.bytes
          cases f.key with
          | none => simp; omega
          | some k => simp [masked_length]; omega
        omega
    have hbig := big _ ok
    rw [hd, List.length_append] at hbig
    have hg := frameBytes_length (g :: gs)
    rw [List.length_cons] at hg
    refine unpack_large hp ?_ (by omega) (by omega) ?_
    · have := (sz f (by simp)).1; omega
    · rw [b1]; omega

example : ∃ msg : Bytes, 2 ^ 28 ≤ msg.length ∧ msg.length < 2 ^ 28 + 2 ^ 27 := by
  obtain ⟨d, hd⟩ : ∃ d : Bytes, d.length = 2 ^ 28 := ⟨List.replicate _ 0, List.length_replicate⟩
  exact ⟨d, by omega, by omega⟩

/-! ### C29: the division of the stream into pieces does not matter -/

/-- A new connection. -/
def newConn : Conn := ⟨[], true⟩

/-- C29, first half: whatever the bytes are, two divisions of them into pieces deliver the same messages and end the connection in
the same cases.  Missing: 2^28 bytes or more at once (`C28_large_violated`). -/
theorem C29_pieces_partial (ps qs : List Bytes) (h : ps.flatten = qs.flatten) (hb : ps.flatten.length < 2 ^ 28) :
    (receive newConn ps).map (fun x => (x.1.working, x.2)) = (receive newConn qs).map (fun x => (x.1.working, x.2)) := by
  have h1 := receive_full [] parse_nil ps (by simpa using hb)
  have h2 := receive_full [] parse_nil qs (by rw [← h]; simpa using hb)
  unfold newConn
  rw [h1, h2, h]

example : [[1, 2], [3], ([] : Bytes)].flatten = [[1], [2, 3]].flatten ∧ [[1, 2], [3], ([] : Bytes)].flatten.length < 2 ^ 28 := by decide

/-- The bytes a sender produces for a sequence of messages, tail and contents each. -/
def sent (junk : Nat → UInt8) : List (UInt8 × Bytes) → Option Bytes
  | [] => some []
  | m :: ms => do
    let a ← pack junk m.1 m.2
    let b ← sent junk ms
    some (a ++ b)

theorem sent_some (junk : Nat → UInt8) (ms : List (UInt8 × Bytes)) (h : ∀ m ∈ ms, isBytes m.1 = true ∨ m.2 ≠ []) :
    ∃ s, sent junk ms = some s := by
  induction ms with
  | nil => exact ⟨[], rfl⟩
  | cons m ms ih =>
    obtain ⟨fs, a1, _⟩ := pack_spec junk m.1 m.2 (h m (by simp))
    obtain ⟨s, hs⟩ := ih fun x hx => h x (by simp [hx])
    exact ⟨frameBytes fs ++ s, by simp [sent, a1, hs]⟩

theorem full_sent (junk : Nat → UInt8) (ms : List (UInt8 × Bytes)) (h : ∀ m ∈ ms, isBytes m.1 = true ∨ m.2 ≠ []) (s p more : Bytes)
    (hs : sent junk ms = some s) (hp : p ++ more = s) (hb : p.length < 2 ^ 28) :
    ∃ k r t, k ≤ ms.length ∧ full true p = some (⟨r, true⟩, (ms.take k).map got) ∧ sent junk (ms.take k) = some t ∧ p = t ++ r ∧
      (∀ t', k < ms.length → sent junk (ms.take (k + 1)) = some t' → p.length < t'.length) := by
  induction ms generalizing s p with
  | nil =>
    injection hs with hs
    rw [← hs] at hp
    obtain ⟨rfl, -⟩ := List.append_eq_nil_iff.mp hp
    refine ⟨0, [], [], Nat.le_refl _, ?_, rfl, rfl, by simp⟩
    rw [full_eq true [] (by decide)]
    rfl
  | cons m ms ih =>
    have hm := h m (by simp)
    have hms : ∀ x ∈ ms, isBytes x.1 = true ∨ x.2 ≠ [] := fun x hx => h x (by simp [hx])
    obtain ⟨fs, a1, _⟩ := pack_spec junk m.1 m.2 hm
    obtain ⟨s2, hs2⟩ := sent_some junk ms hms
    have hse : s = frameBytes fs ++ s2 := by
      simp only [sent, a1, hs2, Option.bind_eq_bind, Option.bind_some] at hs
      injection hs with hs; exact hs.symm
    rw [hse] at hp
    by_cases hl : (frameBytes fs).length ≤ p.length
    · obtain ⟨p2, rfl⟩ : ∃ p2, p = frameBytes fs ++ p2 := by
        refine ⟨p.drop (frameBytes fs).length, ?_⟩
        have : (p ++ more).take (frameBytes fs).length = frameBytes fs := by rw [hp]; exact List.take_left
        rw [List.take_append_of_le_length hl] at this
        calc p = p.take (frameBytes fs).length ++ p.drop (frameBytes fs).length := (List.take_append_drop _ _).symm
          _ = _ := by rw [this]
      have hp2 : p2 ++ more = s2 := by
        rw [List.append_assoc] at hp; exact List.append_cancel_left hp
      obtain ⟨k, r, t, i1, i2, i3, i4, i5⟩ := ih hms s2 p2 hs2 hp2 (by rw [List.length_append] at hb; omega)
      refine ⟨k + 1, r, frameBytes fs ++ t, by simp; omega, ?_, ?_, ?_, ?_⟩
      · rw [full_pack hm a1 true p2 hb, i2]; rfl
      · simp [sent, a1, i3]
      · rw [i4, List.append_assoc]
      · intro t' hk ht'
        simp only [List.take_succ_cons, sent, a1, Option.bind_eq_bind, Option.bind_some] at ht'
        cases hx : sent junk (ms.take (k + 1)) with
        | none => rw [hx] at ht'; cases ht'
        | some x =>
          rw [hx] at ht'
          injection ht' with ht'
          have := i5 x (by simpa using hk) hx
          rw [← ht', List.length_append, List.length_append]; omega
    · have hpn : parse p = none := by
        cases hq : parse p with
        | none => rfl
        | some x =>
          exfalso
          obtain ⟨op, d, r⟩ := x
          have e1 := (parse_extend (q := more) hq).1
          rw [hp, pack_parse hm a1 s2] at e1
          injection e1 with e1
          simp only [Prod.mk.injEq] at e1
          have e2 := congrArg List.length e1.2.2
          have e3 := congrArg List.length hp
          simp only [List.length_append] at e2 e3
          omega
      refine ⟨0, p, [], Nat.zero_le _, ?_, rfl, rfl, ?_⟩
      · rw [full_eq true p hb, hpn]; rfl
      · intro t' _ ht'
        simp only [List.take_succ_cons, List.take_zero, sent, a1, Option.bind_eq_bind, Option.bind_some] at ht'
        injection ht' with ht'
        rw [← ht', List.append_nil]; omega

/-- C29, second half: of a stream of packed messages, whatever prefix has arrived and however it was divided, exactly the messages
whose last byte has arrived are delivered, in order; the bytes `r` of the next one wait; the connection goes on. -/
theorem C29_prefix_partial (junk : Nat → UInt8) (ms : List (UInt8 × Bytes)) (h : ∀ m ∈ ms, isBytes m.1 = true ∨ m.2 ≠ []) :
    ∃ s, sent junk ms = some s ∧ ∀ ps more, ps.flatten ++ more = s → ps.flatten.length < 2 ^ 28 →
      ∃ c k, k ≤ ms.length ∧ receive newConn ps = some (c, (ms.take k).map got) ∧ c.working = true ∧
        (∃ t r, sent junk (ms.take k) = some t ∧ ps.flatten = t ++ r) ∧
        (∀ t', k < ms.length → sent junk (ms.take (k + 1)) = some t' → ps.flatten.length < t'.length) := by
  obtain ⟨s, hs⟩ := sent_some junk ms h
  refine ⟨s, hs, fun ps more hp hb => ?_⟩
  obtain ⟨k, r, t, i1, i2, i3, i4, i5⟩ := full_sent junk ms h s ps.flatten more hs hp hb
  have hr := receive_full [] parse_nil ps (by simpa using hb)
  rw [List.nil_append, i2] at hr
  cases hc : receive ⟨[], true⟩ ps with
  | none => rw [hc] at hr; simp at hr
  | some x =>
    obtain ⟨c, out⟩ := x
    rw [hc] at hr
    simp only [Option.map_some, Option.some.injEq, Prod.mk.injEq] at hr
    exact ⟨c, k, i1, by unfold newConn; rw [hc, hr.2], hr.1, ⟨t, r, i3, i4⟩, i5⟩

/-- C29 for the whole stream: every message arrives, once and in order. -/
theorem C29_stream_partial (junk : Nat → UInt8) (ms : List (UInt8 × Bytes)) (h : ∀ m ∈ ms, isBytes m.1 = true ∨ m.2 ≠ []) :
    ∃ s, sent junk ms = some s ∧ ∀ ps, ps.flatten = s → s.length < 2 ^ 28 →
      ∃ c, receive newConn ps = some (c, ms.map got) ∧ c.working = true := by
  obtain ⟨s, hs, hx⟩ := C29_prefix_partial junk ms h
  refine ⟨s, hs, fun ps hp hb => ?_⟩
  obtain ⟨c, k, i1, i2, i3, -, i5⟩ := hx ps [] (by rw [List.append_nil, hp]) (by rw [hp]; exact hb)
  by_cases hk : k < ms.length
  · exfalso
    obtain ⟨t', ht'⟩ := sent_some junk (ms.take (k + 1)) fun m hm => h m (List.mem_of_mem_take hm)
    have h1 := i5 t' hk ht'
    have mono : ∀ (l l' : List (UInt8 × Bytes)) (a b : Bytes), sent junk l = some a → sent junk (l ++ l') = some b → a.length ≤ b.length := by
      intro l l' a b ha hb
      induction l generalizing a b with
      | nil => injection ha with ha; rw [← ha]; simp
      | cons m l ih =>
        simp only [List.cons_append, sent, Option.bind_eq_bind] at ha hb
        cases hpk : pack junk m.1 m.2 with
        | none => rw [hpk] at ha; cases ha
        | some o =>
          rw [hpk] at ha hb
          simp only [Option.bind_some] at ha hb
          cases h1 : sent junk l with
          | none => rw [h1] at ha; cases ha
          | some a1 =>
            cases h2 : sent junk (l ++ l') with
            | none => rw [h2] at hb; cases hb
            | some b1 =>
              rw [h1] at ha
              rw [h2] at hb
              injection ha with ha
              injection hb with hb
              have := ih a1 b1 h1 h2
              rw [← ha, ← hb, List.length_append, List.length_append]; omega
    have h2 := mono (ms.take (k + 1)) (ms.drop (k + 1)) t' s ht' (by rw [List.take_append_drop]; exact hs)
    rw [hp] at h1
    omega
  · rw [List.take_of_length_le (by omega)] at i2
    exact ⟨c, i2, i3⟩

/-- Two messages, a text and an empty binary one, meet the hypotheses. -/
example : ∀ m ∈ [((0 : UInt8), ([104, 105] : Bytes)), (3, [])], isBytes m.1 = true ∨ m.2 ≠ [] := by decide

/-! ### C30: no access outside the received bytes -/

/-- C30: with less than 2^28 bytes of input, unpacking reads outside it exactly when a complete binary message without any byte is
at its beginning. -/
theorem C30_in_bounds_partial (inp : Bytes) (hb : inp.length < 2 ^ 28) :
    unpack inp = none ↔ ∃ fs rest, (∀ f ∈ fs, Frame.Ok f) ∧ oneMessage fs ∧ inp = frameBytes fs ++ rest ∧ opOf fs = 2 ∧
      (fs.map Frame.data).flatten = [] := by
  rw [unpack_spec inp hb]
  constructor
  · intro h
    cases hp : parse inp with
    | none => rw [hp] at h; cases h
    | some t =>
      obtain ⟨op, d, r⟩ := t
      rw [hp] at h
      obtain ⟨fs, a1, a2, a3, a4, a5⟩ := parse_inv hp
      simp only [answer] at h
      by_cases h1 : op = 1
      · rw [if_pos h1] at h; cases h
      · rw [if_neg h1] at h
        by_cases h2 : op = 2
        · rw [if_pos h2] at h
          refine ⟨fs, r, a1, a2, a3, by rw [a4, h2], ?_⟩
          rw [a5]
          cases d with
          | nil => rfl
          | cons x d => simp at h
        · rw [if_neg h2] at h; cases h
  · rintro ⟨fs, rest, a1, a2, a3, a4, a5⟩
    rw [a3, parse_frames fs a1 a2, a4, a5]
    rfl

/-- What else can come out: a message only if a complete one is there, waiting only if none is. -/
theorem C30_answers_partial (inp : Bytes) (hb : inp.length < 2 ^ 28) :
    (unpack inp = some .wait ↔ ¬ ∃ fs rest, (∀ f ∈ fs, Frame.Ok f) ∧ oneMessage fs ∧ inp = frameBytes fs ++ rest) ∧
    (∀ t d r, unpack inp = some (.msg t d r) → ∃ fs, (∀ f ∈ fs, Frame.Ok f) ∧ oneMessage fs ∧ inp = frameBytes fs ++ r ∧
      ((opOf fs = 1 ∧ t = 0 ∧ (fs.map Frame.data).flatten = d) ∨ (opOf fs = 2 ∧ (fs.map Frame.data).flatten = d ++ [t]))) := by
  rw [unpack_spec inp hb]
  cases hp : parse inp with
  | none =>
    refine ⟨⟨fun _ => ?_, fun _ => rfl⟩, fun t d r h => by cases h⟩
    rintro ⟨fs, rest, a1, a2, a3⟩
    rw [a3, parse_frames fs a1 a2] at hp
    cases hp
  | some x =>
    obtain ⟨op, d, r⟩ := x
    obtain ⟨fs, a1, a2, a3, a4, a5⟩ := parse_inv hp
    have hex : ∃ fs rest, (∀ f ∈ fs, Frame.Ok f) ∧ oneMessage fs ∧ inp = frameBytes fs ++ rest := ⟨fs, r, a1, a2, a3⟩
    simp only [answer]
    by_cases h1 : op = 1
    · rw [if_pos h1]
      refine ⟨⟨fun h => (by cases h), fun h => absurd hex h⟩, fun t d' r' h => ?_⟩
      injection h with h
      injection h with e1 e2 e3
      exact ⟨fs, a1, a2, by rw [← e3]; exact a3, .inl ⟨by rw [a4, h1], e1.symm, by rw [a5, e2]⟩⟩
    · rw [if_neg h1]
      by_cases h2 : op = 2
      · rw [if_pos h2]
        cases hd : d.getLast? with
        | none => exact ⟨⟨fun h => (by cases h), fun h => absurd hex h⟩, fun t d' r' h => (by cases h)⟩
        | some tl =>
          refine ⟨⟨fun h => (by cases h), fun h => absurd hex h⟩, fun t d' r' h => ?_⟩
          simp only [Option.map_some] at h
          injection h with h
          injection h with e1 e2 e3
          refine ⟨fs, a1, a2, by rw [← e3]; exact a3, .inr ⟨by rw [a4, h2], ?_⟩⟩
          rw [a5, ← e1, ← e2]
          have hne : d ≠ [] := by intro hn; rw [hn] at hd; cases hd
          rw [List.getLast?_eq_some_getLast hne] at hd
          injection hd with hd
          rw [← hd]
          exact (List.dropLast_concat_getLast hne).symm
      · rw [if_neg h2]
        exact ⟨⟨fun h => (by cases h), fun h => absurd hex h⟩, fun t d' r' h => (by cases h)⟩

example : ([0x81, 0x05, 0x68] : Bytes).length < 2 ^ 28 := by decide

/-- Two bytes from a peer are enough: the tail is copied from before the beginning of the empty output. -/
theorem C30_empty_binary_violated : unpack [0x82, 0x00] = none := by
  rw [unpack_spec _ (by decide)]
  decide +kernel

end Sis.Ws
