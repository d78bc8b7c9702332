import Verif.Net.HandLemmas
/-
C116: the opening handshake of websockets.
-/
namespace Sis.Hand
open Sis Json HandSpec

/-- The request that RFC 6455 shows. -/
def demoHeaders : List Header :=
  [⟨text "Host", text "server.example.com"⟩, ⟨text "Upgrade", text "websocket"⟩, ⟨text "Connection", text "Upgrade"⟩,
    ⟨text "Sec-WebSocket-Key", text "dGhlIHNhbXBsZSBub25jZQ=="⟩, ⟨text "Origin", text "http://example.com"⟩,
    ⟨text "Sec-WebSocket-Version", text "13"⟩]

/-- It is one. -/
theorem demo_request : Request (text "GET /chat HTTP/1.1") demoHeaders (text "dGhlIHNhbXBsZSBub25jZQ==") := by
  refine ⟨by unfold Plain; decide +kernel, by decide +kernel, by decide +kernel, demoHeaders.take 3, demoHeaders.drop 4, rfl, by decide +kernel⟩

/-- C116. A request that comes in one piece is answered as the RFC says, the connection is told of, and what comes behind the
request is kept; whatever the memory held before.  `h0`: of the eight bytes behind the key on the stack one is zero. -/
theorem C116_answer_partial (junk : Nat → UInt8) (e : Env) (h0 : (0 : UInt8) ∈ e.stack) (first : Bytes) (hs : List Header) (key rest : Bytes)
    (hr : Request first hs key) :
    serverRecv e (head first hs ++ rest) (serverNew junk) = some (.working ⟨rest, true⟩, [.sent (answer key), .connected]) := by
  obtain ⟨X, hX⟩ := cat_create e.grown junk (head first hs ++ rest)
  exact recv_of e h0 first hs key rest hr _ _ X hX

/-- Such memory. -/
example : ∃ e : Env, (0 : UInt8) ∈ e.stack := ⟨⟨fun _ => 7, fun _ => 7, fun _ => 7, [1, 2, 3, 4, 5, 6, 7, 0], [], fun _ => 7⟩, by decide⟩

set_option maxRecDepth 10000 in
/-- The answer of the RFC to its request. -/
example : answer (text "dGhlIHNhbXBsZSBub25jZQ==") =
    text "HTTP/1.1 101 Switching Protocols\r\nUpgrade: websocket\r\nConnection: Upgrade\r\nSec-WebSocket-Accept: s3pPLMBiTxaQ9kYGzzhZRbK+xOo=\r\n\r\n" := by
  decide +kernel

theorem receive_one (c : Ws.Conn) (p : Bytes) (ps : List Bytes) :
    Ws.receive c (p :: ps) = (Ws.receive c [p]).bind fun x => (Ws.receive x.1 ps).map fun y => (y.1, x.2 ++ y.2) := by
  by_cases hw : c.working = true
  · simp only [Ws.receive, if_pos hw]
    cases hd : Ws.drain (c.mem.length + p.length + 1) ⟨c.mem ++ p, true⟩ with
    | none => rfl
    | some x => 
      obtain ⟨c1, ms⟩ := x
      simp only [Option.bind_eq_bind, Option.bind_some]
      cases hr : Ws.receive c1 ps with
      | none => simp
      | some y => simp
  · simp only [Ws.receive, if_neg hw, Option.bind_some]
    have : ∀ l, Ws.receive c l = some (c, []) := by
      intro l
      cases l with
      | nil => rfl
      | cons a l => simp [Ws.receive, hw]
    rw [this]
    rfl

theorem server_gone (ps : List (Env × Bytes)) : server .gone ps = some (.gone, []) := by
  induction ps with
  | nil => rfl
  | cons x ps ih =>
    obtain ⟨e, p⟩ := x
    simp [server, serverRecv, ih]

theorem server_working (c : Ws.Conn) (hc : c.working = true) (ps : List (Env × Bytes)) :
    (server (.working c) ps).map Prod.snd = (Ws.receive c (ps.map Prod.snd)).map fun x => x.2.map fun y => Out.msg y.1 y.2 := by
  induction ps generalizing c with
  | nil => rfl
  | cons x ps ih =>
    obtain ⟨e, p⟩ := x
    rw [List.map_cons, receive_one]
    simp only [server, serverRecv, work, if_pos hc]
    cases hr : Ws.receive c [p] with
    | none => rfl
    | some y =>
      obtain ⟨c1, ms⟩ := y
      simp only [Option.map_some, Option.bind_some]
      by_cases h1 : c1.working = true
      · rw [if_pos h1]
        have := ih c1 h1
        cases h2 : server (.working c1) ps with
        | none =>
          rw [h2] at this
          cases h3 : Ws.receive c1 (ps.map Prod.snd) with
          | none => rfl
          | some z => rw [h3] at this; simp at this
        | some z =>
          rw [h2] at this
          cases h3 : Ws.receive c1 (ps.map Prod.snd) with
          | none => rw [h3] at this; simp at this
          | some z' =>
            rw [h3] at this
            simp only [Option.map_some, Option.some.injEq] at this
            simp [this]
      · rw [if_neg h1, server_gone]
        have : Ws.receive c1 (ps.map Prod.snd) = some (c1, []) := by
          cases ps.map Prod.snd with
          | nil => rfl
          | cons a l => simp [Ws.receive, h1]
        simp [this]

theorem receive_join (rest p : Bytes) (ps : List Bytes) :
    (Ws.receive ⟨rest, true⟩ (p :: ps)) = Ws.receive Ws.newConn ((rest ++ p) :: ps) := by
  simp [Ws.receive, Ws.newConn]

/-- C116. The messages of a session: after the request, which comes in one piece with or without bytes of messages behind it, come
pieces that make up the packed messages in any cut; exactly the messages packed come out, in their order.  Missing: messages behind
the request that no other piece follows (`C116_violated_waits`). -/
theorem C116_session_partial (junk : Nat → UInt8) (e : Env) (h0 : (0 : UInt8) ∈ e.stack) (first : Bytes) (hs : List Header) (key rest : Bytes)
    (hr : Request first hs key) (jk : Nat → UInt8) (ms : List (UInt8 × Bytes)) (hms : ∀ m ∈ ms, Ws.isBytes m.1 = true ∨ m.2 ≠ []) :
    ∃ s, Ws.sent jk ms = some s ∧ ∀ (p : Env × Bytes) (ps : List (Env × Bytes)), rest ++ p.2 ++ (ps.map Prod.snd).flatten = s → s.length < 2 ^ 28 →
      (server (serverNew junk) ((e, head first hs ++ rest) :: p :: ps)).map Prod.snd =
        some ([.sent (answer key), .connected] ++ ms.map fun m => .msg (Ws.got m).1 (Ws.got m).2) := by
  obtain ⟨s, hs', hx⟩ := Ws.C29_stream_partial jk ms hms
  refine ⟨s, hs', fun p ps hp hl => ?_⟩
  obtain ⟨c, hc, -⟩ := hx ((rest ++ p.2) :: ps.map Prod.snd) (by rw [← hp]; simp) hl
  have h1 := C116_answer_partial junk e h0 first hs key rest hr
  have h2 := server_working ⟨rest, true⟩ rfl (p :: ps)
  rw [List.map_cons, receive_join, hc] at h2
  simp only [Option.map_some] at h2
  show ((serverRecv e (head first hs ++ rest) (serverNew junk)).bind fun x => (server x.1 (p :: ps)).map fun y => (y.1, x.2 ++ y.2)).map Prod.snd = _
  rw [h1, Option.bind_some]
  cases h3 : server (.working ⟨rest, true⟩) (p :: ps) with
  | none => rw [h3] at h2; simp at h2
  | some z =>
    rw [h3] at h2
    simp only [Option.map_some, Option.some.injEq] at h2
    simp [h2]

example : ∀ m ∈ [((0 : UInt8), text "{}"), (1, [])], Ws.isBytes m.1 = true ∨ m.2 ≠ [] := by decide +kernel

/-- C116 is violated for messages that come in one piece with the request: they are kept, but nothing comes out until another piece
arrives. -/
theorem C116_violated_waits (junk : Nat → UInt8) (e : Env) (h0 : (0 : UInt8) ∈ e.stack) (first : Bytes) (hs : List Header) (key : Bytes)
    (hr : Request first hs key) (jk : Nat → UInt8) (m : UInt8 × Bytes) (s : Bytes) (_ : Ws.sent jk [m] = some s) :
    server (serverNew junk) [(e, head first hs ++ s)] = some (.working ⟨s, true⟩, [.sent (answer key), .connected]) := by
  show ((serverRecv e (head first hs ++ s) (serverNew junk)).bind fun x => (server x.1 []).map fun y => (y.1, x.2 ++ y.2)) = _
  rw [C116_answer_partial junk e h0 first hs key s hr]
  rfl

/-- Such a message. -/
example : ∃ s, Ws.sent (fun _ => 0) [(0, text "{}")] = some s ∧ s ≠ [] := by
  have : (Ws.sent (fun _ => 0) [(0, text "{}")]).isSome = true ∧ (Ws.sent (fun _ => 0) [(0, text "{}")]).getD [] ≠ [] := by decide +kernel
  obtain ⟨h1, h2⟩ := this
  obtain ⟨s, hs⟩ := Option.isSome_iff_exists.1 h1
  exact ⟨s, hs, by rw [hs] at h2; exact h2⟩

/-! ### Requests in pieces -/

/-- C116. A request that comes in pieces is answered in the same way if the memory holds zeros: no piece before the last one is
answered, and the last one gives the answer - unless a piece fills the buffer to its last byte and the search reads on
(`C116_violated_full`). -/
theorem C116_pieces_partial (first : Bytes) (hs : List Header) (key rest : Bytes) (hr : Request first hs key) (ps : List (Env × Bytes)) (e : Env)
    (last : Bytes) (h0 : (0 : UInt8) ∈ e.stack) (hg : ∀ x ∈ ps ++ [(e, last)], x.1.grown = fun _ => 0)
    (hcut : (ps.map Prod.snd).flatten ++ last = head first hs ++ rest) (hl : (ps.map Prod.snd).flatten.length < (head first hs).length) :
    ((head first hs ++ rest).length < 255 → (server (serverNew fun _ => 0) (ps ++ [(e, last)])).isSome) ∧
    ∀ x, server (serverNew fun _ => 0) (ps ++ [(e, last)]) = some x → x = (.working ⟨rest, true⟩, [.sent (answer key), .connected]) := by
  have := pieces_zero first hs key rest hr ps e last h0 (hg (e, last) (by simp)) (fun x hx => hg x (List.mem_append_left _ hx)) [] 255
    (by simp) (by simpa using hcut) (by simpa using hl)
  have e1 : serverNew (fun _ => 0) = .handing ⟨[] ++ List.replicate 255 0, ([] : Bytes).length, 0⟩ := by
    unfold serverNew create
    rw [fresh_zero]; rfl
  rw [e1]
  refine ⟨fun h => this.1 (by simpa using h), this.2⟩

/-- Memory of zeros. -/
def zeroEnv : Env := ⟨fun _ => 0, fun _ => 0, fun _ => 0, [0, 0, 0, 0, 0, 0, 0, 0], [], fun _ => 0⟩

/-- Such pieces. -/
example : ∃ ps last, ([(zeroEnv, (head (text "GET /chat HTTP/1.1") demoHeaders).take 30)].map Prod.snd).flatten ++ last =
    head (text "GET /chat HTTP/1.1") demoHeaders ++ [1, 2] ∧ ps = [(zeroEnv, (head (text "GET /chat HTTP/1.1") demoHeaders).take 30)] ∧
    (head (text "GET /chat HTTP/1.1") demoHeaders ++ [1, 2]).length < 255 := by
  refine ⟨_, (head (text "GET /chat HTTP/1.1") demoHeaders).drop 30 ++ [1, 2], by decide +kernel, rfl, by decide +kernel⟩

/-- C116 is violated for a piece that fills the buffer: the search for the end of the head reads behind the buffer. -/
theorem C116_violated_full (junk : Nat → UInt8) (e : Env) (p : Bytes) (hl : p.length = 255) (h0 : (0 : UInt8) ∉ p) (hn : ¬ text "\r\n\r\n" <:+: p) :
    serverRecv e p (serverNew junk) = none := by
  have hc : cat e.grown (create junk) p = ⟨p, 255, 0⟩ := by
    unfold cat grow create
    simp only [hl, fresh_length, Nat.zero_add, Nat.add_zero, Nat.le_refl, if_true]
    rw [List.drop_of_length_le (by rw [fresh_length]; omega)]
    simp
  unfold serverNew serverRecv recvAsk headComplete
  simp only [hc]
  have : strsub eof 0 (ptr ⟨p, 255, 0⟩) = none := by
    unfold ptr
    simp only [List.drop_zero]
    refine strsub_out p 0 h0 fun k _ hx => hn ?_
    exact hx.isInfix.trans (List.drop_suffix _ _).isInfix
  rw [this]
  rfl

/-- Such a piece: the beginning of a request. -/
example : (List.replicate 255 (97 : UInt8)).length = 255 ∧ (0 : UInt8) ∉ List.replicate 255 (97 : UInt8) ∧
    ¬ text "\r\n\r\n" <:+: List.replicate 255 (97 : UInt8) := by decide +kernel

/-- C116 is violated by what the memory held before: if the buffer of a new connection still holds the request of another client,
the first bytes of a request - the same in both - are answered at once, with the key of the other client; what follows of the
request is then taken for messages. -/
theorem C116_violated_stale (e : Env) (h0 : (0 : UInt8) ∈ e.stack) (first first' : Bytes) (hs hs' : List Header) (key key' : Bytes)
    (_ : Request first hs key) (hr' : Request first' hs' key') (hl : (head first' hs').length ≤ 255) (k : Nat) (hk : 0 < k)
    (_ : k < (head first hs).length) (hk2 : k < (head first' hs').length) (heq : (head first hs).take k = (head first' hs').take k)
    (junk : Nat → UInt8) (hj : ∀ i, i < (head first' hs').length → junk i = (head first' hs').getD i 0) :
    serverRecv e ((head first hs).take k) (serverNew junk) = some (.working ⟨[], true⟩, [.sent (answer key'), .connected]) := by
  have hb : fresh junk 255 = head first' hs' ++ (fresh junk 255).drop (head first' hs').length := by
    have : (fresh junk 255).take (head first' hs').length = head first' hs' := by
      apply List.ext_getElem (by rw [List.length_take, fresh_length]; omega)
      intro i h1 h2
      simp only [List.getElem_take, fresh, List.getElem_map, List.getElem_range]
      rw [hj i h2, List.getD_eq_getElem?_getD, List.getElem?_eq_getElem h2]
      rfl
    conv => lhs; rw [← List.take_append_drop (head first' hs').length (fresh junk 255), this]
  generalize (fresh junk 255).drop (head first' hs').length = X at hb
  have hlen : ((head first' hs').take k).length = k := by rw [List.length_take]; omega
  have hblen : (head first' hs' ++ X).length = 255 := by rw [← hb, fresh_length]
  have hc : cat e.grown (create junk) ((head first hs).take k) = ⟨head first' hs' ++ X, k, 0⟩ := by
    rw [heq]
    unfold cat grow create
    rw [hb]
    simp only [hlen, if_pos hk, Nat.add_zero]
    rw [if_pos (by rw [hblen]; omega)]
    simp only [List.take_zero, List.nil_append, Nat.zero_add]
    rw [← List.take_append_of_le_length (l₂ := X) (show k ≤ (head first' hs').length by omega), List.take_append_drop]
  unfold serverNew serverRecv
  simp only [hc]
  obtain ⟨Y, hY⟩ := cat_create e.ansGrown e.ans (head first' hs')
  have e2 : copyHead e ⟨head first' hs' ++ X, k, 0⟩ (head first' hs').length = some ⟨head first' hs' ++ Y, (head first' hs').length, 0⟩ := by
    unfold copyHead ptr
    rw [if_pos (by simp), ← hY]
    simp
  unfold recvAsk
  rw [headComplete_head first' hs' hr'.plain X k]
  simp only
  rw [e2]
  simp only [Option.bind_some]
  rw [getKey_of e.stack e.dest h0 first' hs' key' Y _ hr']
  simp only
  rw [getAns_of e.w key' _ hr'.length hr'.signs]
  simp only [Option.map_some, move, Nat.zero_add]
  rw [if_neg (by omega)]
  simp [unread]

/-- Such requests: they differ in the key only. -/
example : ∃ k, 0 < k ∧ k < (head (text "GET / HTTP/1.1") [⟨text "Sec-WebSocket-Key", text "dGhlIHNhbXBsZSBub25jZQ=="⟩]).length ∧
    (head (text "GET / HTTP/1.1") [⟨text "Sec-WebSocket-Key", text "dGhlIHNhbXBsZSBub25jZQ=="⟩]).take k =
    (head (text "GET / HTTP/1.1") [⟨text "Sec-WebSocket-Key", text "x3JJHMbDL1EzLkh9GBhXDw=="⟩]).take k ∧
    (head (text "GET / HTTP/1.1") [⟨text "Sec-WebSocket-Key", text "x3JJHMbDL1EzLkh9GBhXDw=="⟩]).length ≤ 255 := by
  exact ⟨30, by decide +kernel⟩

/-! ### Requests that are not answered -/

/-- C116 is violated for requests without the header: the client gets no answer, the connection is not closed, and nothing that it
sends later has any effect (memory of zeros; the copy of the head does not fill its buffer). -/
theorem C116_violated_silent (junk : Nat → UInt8) (e : Env) (ha : e.ans = fun _ => 0) (hag : e.ansGrown = fun _ => 0) (first : Bytes)
    (hs : List Header) (hp : Plain first hs) (hn : ∀ l ∈ first :: hs.map line, ¬ text "Sec-WebSocket-Key" <:+: l) (rest : Bytes)
    (hl : (head first hs).length ≠ 255) (ps : List (Env × Bytes)) :
    server (serverNew junk) ((e, head first hs ++ rest) :: ps) = some (.gone, []) := by
  obtain ⟨X, hX⟩ := cat_create e.grown junk (head first hs ++ rest)
  have e1 := headComplete_head first hs hp (rest ++ X) (head first hs ++ rest).length
  rw [← List.append_assoc] at e1
  obtain ⟨n', hY, hn1, -, hn2⟩ := cat_zeros [] (head first hs) 255 (by simp)
  have hY' : cat e.ansGrown (create e.ans) (head first hs) = ⟨head first hs ++ List.replicate n' 0, (head first hs).length, 0⟩ := by
    rw [ha, hag]
    unfold create
    rw [fresh_zero]
    exact hY
  have hpos : 0 < n' := by
    by_cases h : (head first hs).length ≤ 255
    · rw [hn1 h]; omega
    · exact hn2 (by omega)
  have e2 : copyHead e ⟨head first hs ++ rest ++ X, (head first hs ++ rest).length, 0⟩ (head first hs).length =
      some ⟨head first hs ++ List.replicate n' 0, (head first hs).length, 0⟩ := by
    unfold copyHead ptr
    rw [if_pos (by simp), ← hY']
    simp
  have hstep : serverRecv e (head first hs ++ rest) (serverNew junk) = some (.gone, []) := by
    unfold serverNew serverRecv recvAsk
    simp only [hX, e1, e2, Option.bind_some, no_key e.stack e.dest first hs hp hn n' _ hpos]
    rfl
  simp only [server, hstep, Option.bind_some, server_gone]
  rfl

/-- C116 is violated for the name of the header in small letters, which the RFC allows: the same happens. -/
theorem C116_violated_case (junk : Nat → UInt8) (key : Bytes) (hk : key.length = 24) (hc : ∀ c ∈ key, c ∈ ShaSpec.alphabet ∨ c = 61)
    (ps : List (Env × Bytes)) :
    server (serverNew junk) ((zeroEnv, head (text "GET / HTTP/1.1") [⟨text "Upgrade", text "websocket"⟩, ⟨text "sec-websocket-key", key⟩]) :: ps) =
      some (.gone, []) := by
  have := C116_violated_silent junk zeroEnv rfl rfl (text "GET / HTTP/1.1") [⟨text "Upgrade", text "websocket"⟩, ⟨text "sec-websocket-key", key⟩]
    ?_ ?_ [] ?_ ps
  · simpa using this
  · intro l hl c hcl
    simp only [List.map_cons, List.map_nil, List.mem_cons, List.not_mem_nil, or_false] at hl
    rcases hl with rfl | rfl | rfl
    · revert c; decide +kernel
    · revert c; decide +kernel
    · unfold line at hcl
      rcases List.mem_append.1 hcl with h | h
      · clear hcl
        revert c; show ∀ c, c ∈ text "sec-websocket-key" ++ text ": " → _; decide +kernel
      · rcases hc c h with h | h
        · have := alphabet_ok c h
          exact ⟨this.2.2.2.2, this.2.2.1, this.2.2.2.1⟩
        · subst h; decide
  · intro l hl
    simp only [List.map_cons, List.map_nil, List.mem_cons, List.not_mem_nil, or_false] at hl
    rcases hl with rfl | rfl | rfl
    · decide +kernel
    · decide +kernel
    · intro hx
      have hdash : (45 : UInt8) ∉ key := by
        intro h
        rcases hc _ h with h | h
        · revert h; decide +kernel
        · exact absurd h (by decide)
      obtain ⟨a, b, hab⟩ := hx
      have h2 := congrArg (List.count 45) hab
      have hl : line ⟨text "sec-websocket-key", key⟩ = text "sec-websocket" ++ 45 :: (text "key: " ++ key) := by
        have : text "sec-websocket-key" ++ text ": " = text "sec-websocket" ++ 45 :: text "key: " := by decide +kernel
        unfold line
        rw [this, List.append_assoc, List.cons_append]
      have hname : text "Sec-WebSocket-Key" = text "Sec-WebSocket" ++ 45 :: text "Key" := by decide +kernel
      have c1 : List.count 45 (text "Sec-WebSocket-Key") = 2 := by decide +kernel
      have c2 : List.count 45 (text "sec-websocket") = 1 := by decide +kernel
      have c3 : List.count 45 (text "key: ") = 0 := by decide +kernel
      rw [hl, List.count_append, List.count_append, List.count_append, List.count_cons_self, List.count_append, c1, c2, c3,
        List.count_eq_zero.2 hdash] at h2
      have hb : (45 : UInt8) ∉ b := List.count_eq_zero.1 (by omega)
      rw [hl, hname, List.append_assoc, List.append_assoc, ← List.append_assoc, List.cons_append] at hab
      have := last_split hab (by
        intro h
        rcases List.mem_append.1 h with h | h
        · revert h; decide +kernel
        · exact hb h) (by
        intro h
        rcases List.mem_append.1 h with h | h
        · revert h; decide +kernel
        · exact hdash h)
      have e1 : text "Key" = 75 :: text "ey" := by decide +kernel
      have e2 : text "key: " = 107 :: text "ey: " := by decide +kernel
      rw [e1, e2, List.cons_append, List.cons_append] at this
      exact absurd (List.cons.inj this).1 (by decide)
  · simp only [head, line, List.flatMap_cons, List.flatMap_nil, List.length_append, List.length_nil, hk]
    decide +kernel

/-- Such a key. -/
example : (text "dGhlIHNhbXBsZSBub25jZQ==").length = 24 ∧ ∀ c ∈ text "dGhlIHNhbXBsZSBub25jZQ==", c ∈ ShaSpec.alphabet ∨ c = 61 := by
  decide +kernel

/-! ### The client -/

theorem client_takes (junk : Nat → UInt8) (e : Env) (first : Bytes) (hs : List Header) (hp : Plain first hs) (rest : Bytes)
    (h101 : text "101" <:+: head first hs) :
    clientRecv e (head first hs ++ rest) (.handing (create junk)) = some (.working ⟨rest, true⟩, [.connected]) := by
  obtain ⟨X, hX⟩ := cat_create e.grown junk (head first hs ++ rest)
  have e1 := headComplete_head first hs hp (rest ++ X) (head first hs ++ rest).length
  rw [← List.append_assoc] at e1
  obtain ⟨Y, hY⟩ := cat_create e.ansGrown e.ans (head first hs)
  have e2 : copyHead e ⟨head first hs ++ rest ++ X, (head first hs ++ rest).length, 0⟩ (head first hs).length =
      some ⟨head first hs ++ Y, (head first hs).length, 0⟩ := by
    unfold copyHead ptr
    rw [if_pos (by simp), ← hY]
    simp
  obtain ⟨k, hk⟩ := strsub_infix (small := text "101") (head first hs) Y 0 (by decide +kernel) (head_zero first hs hp) h101
  have hk' : strsub "101".toUTF8.toList 0 (ptr ⟨head first hs ++ Y, (head first hs).length, 0⟩) = some (some k) := hk
  unfold clientRecv matchAns
  simp only [hX, e1, e2, Option.bind_some, hk', Option.map_some, Option.isSome_some]
  simp [move, unread]

/-- C116. A client and a server of this code find each other: the client's question is a request in the sense of the RFC, the server
answers it, and the client takes the answer; both then work with nothing left over.  `id`: the 24 signs the client makes up. -/
theorem C116_agree (junk junk' : Nat → UInt8) (e e' : Env) (h0 : (0 : UInt8) ∈ e.stack) (id : Bytes) (hlen : id.length = 24)
    (hid : ∀ c ∈ id, c ∈ ShaSpec.alphabet) :
    ∃ q, (clientNew junk' id).2 = [.sent q] ∧
      serverRecv e q (serverNew junk) = some (.working ⟨[], true⟩, [.sent (answer id), .connected]) ∧
      clientRecv e' (answer id) (clientNew junk' id).1 = some (.working ⟨[], true⟩, [.connected]) := by
  have hq : getAsk id = head (text "GET / HTTP/1.1") [⟨text "Upgrade", text "websocket"⟩, ⟨text "Connection", text "Upgrade"⟩,
      ⟨text "Sec-WebSocket-Version", text "13"⟩, ⟨text "Sec-WebSocket-Key", id⟩] := by
    have e1 : askText = text "GET / HTTP/1.1" ++ text "\r\n" ++ (line ⟨text "Upgrade", text "websocket"⟩ ++ text "\r\n") ++
        (line ⟨text "Connection", text "Upgrade"⟩ ++ text "\r\n") ++ (line ⟨text "Sec-WebSocket-Version", text "13"⟩ ++ text "\r\n") ++
        (text "Sec-WebSocket-Key" ++ text ": ") := by decide +kernel
    have e3 : eof = text "\r\n" ++ text "\r\n" := by decide +kernel
    unfold getAsk
    rw [List.take_of_length_le (by omega), e1, e3]
    unfold head
    simp [line]
  have hr : Request (text "GET / HTTP/1.1") [⟨text "Upgrade", text "websocket"⟩, ⟨text "Connection", text "Upgrade"⟩,
      ⟨text "Sec-WebSocket-Version", text "13"⟩, ⟨text "Sec-WebSocket-Key", id⟩] id := by
    refine ⟨?_, fun c hc => .inl (hid c hc), hlen, [⟨text "Upgrade", text "websocket"⟩, ⟨text "Connection", text "Upgrade"⟩,
      ⟨text "Sec-WebSocket-Version", text "13"⟩], [], rfl, by decide +kernel⟩
    intro l hl c hcl
    simp only [List.map_cons, List.map_nil, List.mem_cons, List.not_mem_nil, or_false] at hl
    rcases hl with rfl | rfl | rfl | rfl | rfl
    · revert c; decide +kernel
    · revert c; decide +kernel
    · revert c; decide +kernel
    · revert c; decide +kernel
    · unfold line at hcl
      rcases List.mem_append.1 hcl with h | h
      · clear hcl
        revert c; show ∀ c, c ∈ text "Sec-WebSocket-Key" ++ text ": " → _; decide +kernel
      · have := alphabet_ok c (hid c h)
        exact ⟨this.2.2.2.2, this.2.2.1, this.2.2.2.1⟩
  refine ⟨getAsk id, rfl, ?_, ?_⟩
  · have := C116_answer_partial junk e h0 _ _ id [] hr
    rw [List.append_nil, ← hq] at this
    exact this
  · have := client_takes junk' e' (text "HTTP/1.1 101 Switching Protocols") [⟨text "Upgrade", text "websocket"⟩, ⟨text "Connection", text "Upgrade"⟩,
      ⟨text "Sec-WebSocket-Accept", ShaSpec.base64 (ShaSpec.sha1 (id ++ text "258EAFA5-E914-47DA-95CA-C5AB0DC85B11"))⟩] ?_ [] ?_
    · rw [List.append_nil] at this
      exact this
    · intro l hl c hcl
      simp only [List.map_cons, List.map_nil, List.mem_cons, List.not_mem_nil, or_false] at hl
      rcases hl with rfl | rfl | rfl | rfl
      · revert c; decide +kernel
      · revert c; decide +kernel
      · revert c; decide +kernel
      · unfold line at hcl
        rcases List.mem_append.1 hcl with h | h
        · clear hcl
          revert c; show ∀ c, c ∈ text "Sec-WebSocket-Accept" ++ text ": " → _; decide +kernel
        · have h' : c ∈ ShaSpec.base64 (ShaSpec.sha1 (id ++ text "258EAFA5-E914-47DA-95CA-C5AB0DC85B11")) := h
          have hz : (id ++ text "258EAFA5-E914-47DA-95CA-C5AB0DC85B11").takeWhile (· != 0) = id ++ text "258EAFA5-E914-47DA-95CA-C5AB0DC85B11" := by
            rw [List.takeWhile_append_of_pos]
            · congr 1
              decide +kernel
            · intro c hc
              simpa using (alphabet_ok c (hid c hc)).2.2.2.2
          have hl : (id ++ text "258EAFA5-E914-47DA-95CA-C5AB0DC85B11").length < 2 ^ 28 := by
            have : (text "258EAFA5-E914-47DA-95CA-C5AB0DC85B11").length = 36 := by decide +kernel
            rw [List.length_append, hlen, this]; decide
          obtain ⟨d, hd, -, hda⟩ := Sha.C115_signs_partial (fun _ => 0) _ (by rw [hz]; exact hl)
          rw [Sha.C115_digest_partial _ _ (by rw [hz]; exact hl), hz] at hd
          rw [Option.some.inj hd] at h'
          rcases List.mem_append.1 h' with h' | h'
          · have := alphabet_ok c (hda c h')
            exact ⟨this.2.2.2.2, this.2.2.1, this.2.2.2.1⟩
          · rw [List.mem_singleton] at h'
            subst h'; decide
    · have : text "101" <:+: text "HTTP/1.1 101 Switching Protocols" := by decide +kernel
      unfold head
      rw [List.append_assoc, List.append_assoc]
      exact this.trans (List.prefix_append _ _).isInfix

/-- Such signs. -/
example : (text "ABCDEFGHIJKLMNOPQRSTUVWX").length = 24 ∧ ∀ c ∈ text "ABCDEFGHIJKLMNOPQRSTUVWX", c ∈ ShaSpec.alphabet := by decide +kernel

/-- C116, in part: a head without the three signs `101` is not taken: the client closes the connection (memory of zeros; the copy of the head does
not fill its buffer). -/
theorem C116_refused_partial (junk : Nat → UInt8) (e : Env) (ha : e.ans = fun _ => 0) (hag : e.ansGrown = fun _ => 0) (id : Bytes) (first : Bytes)
    (hs : List Header) (hp : Plain first hs) (rest : Bytes) (hl : (head first hs).length ≠ 255) (h101 : ¬ text "101" <:+: head first hs) :
    clientRecv e (head first hs ++ rest) (clientNew junk id).1 = some (.gone, [.closed]) := by
  show clientRecv e (head first hs ++ rest) (.handing (create junk)) = _
  obtain ⟨X, hX⟩ := cat_create e.grown junk (head first hs ++ rest)
  have e1 := headComplete_head first hs hp (rest ++ X) (head first hs ++ rest).length
  rw [← List.append_assoc] at e1
  obtain ⟨n', hY, hn1, -, hn2⟩ := cat_zeros [] (head first hs) 255 (by simp)
  have hY' : cat e.ansGrown (create e.ans) (head first hs) = ⟨head first hs ++ List.replicate n' 0, (head first hs).length, 0⟩ := by
    rw [ha, hag]
    unfold create
    rw [fresh_zero]
    exact hY
  have hpos : 0 < n' := by
    by_cases h : (head first hs).length ≤ 255
    · rw [hn1 h]; omega
    · exact hn2 (by omega)
  have e2 : copyHead e ⟨head first hs ++ rest ++ X, (head first hs ++ rest).length, 0⟩ (head first hs).length =
      some ⟨head first hs ++ List.replicate n' 0, (head first hs).length, 0⟩ := by
    unfold copyHead ptr
    rw [if_pos (by simp), ← hY']
    simp
  obtain ⟨n, rfl⟩ : ∃ n, n' = n + 1 := ⟨n' - 1, by omega⟩
  have hk : strsub (text "101") 0 (head first hs ++ 0 :: List.replicate n 0) = some none := by
    refine strsub_none (head first hs) _ 0 (head_zero first hs hp) ?_
    intro k hk hpre
    rw [List.drop_append_of_le_length hk] at hpre
    have h1 := prefix_cut hpre (by decide +kernel)
    exact h101 (h1.isInfix.trans (List.drop_suffix k _).isInfix)
  have hk' : strsub "101".toUTF8.toList 0 (ptr ⟨head first hs ++ List.replicate (n + 1) 0, (head first hs).length, 0⟩) = some none := hk
  unfold clientRecv matchAns
  simp only [hX, e1, e2, Option.bind_some, hk', Option.map_some, Option.isSome_none]

/-- Such a head. -/
example : Plain (text "HTTP/1.1 404 Not Found") [⟨text "Content-Length", text "0"⟩] ∧
    ¬ text "101" <:+: head (text "HTTP/1.1 404 Not Found") [⟨text "Content-Length", text "0"⟩] := by
  refine ⟨by unfold Plain; decide +kernel, by decide +kernel⟩

/-- C116 is violated by the client: it takes every head with the three signs `101` anywhere in it for the answer to its question,
whatever the digest in it, whatever its own key was and whatever the status says. -/
theorem C116_violated_client (junk : Nat → UInt8) (e : Env) (id : Bytes) (first : Bytes) (hs : List Header) (hp : Plain first hs) (rest : Bytes)
    (h101 : text "101" <:+: head first hs) :
    clientRecv e (head first hs ++ rest) (clientNew junk id).1 = some (.working ⟨rest, true⟩, [.connected]) :=
  client_takes junk e first hs hp rest h101

/-- Such a head: a refusal. -/
example : Plain (text "HTTP/1.1 404 Not Found") [⟨text "Content-Length", text "101"⟩] ∧
    text "101" <:+: head (text "HTTP/1.1 404 Not Found") [⟨text "Content-Length", text "101"⟩] := by
  refine ⟨by unfold Plain; decide +kernel, by decide +kernel⟩

/-- C116 is violated by the key of the client: the RFC asks for the Base64 of sixteen bytes, and the 24 signs are never that. -/
theorem C116_violated_nonce (junk : Nat → UInt8) (id : Bytes) (hlen : id.length = 24) (hid : ∀ c ∈ id, c ∈ ShaSpec.alphabet) (nonce : Bytes)
    (hn : nonce.length = 16) :
    ∃ pre post, (clientNew junk id).2 = [.sent (pre ++ text "Sec-WebSocket-Key: " ++ id ++ post)] ∧ id ≠ ShaSpec.base64 nonce := by
  refine ⟨text "GET / HTTP/1.1\r\nUpgrade: websocket\r\nConnection: Upgrade\r\nSec-WebSocket-Version: 13\r\n", text "\r\n\r\n", ?_, ?_⟩
  · have : askText = text "GET / HTTP/1.1\r\nUpgrade: websocket\r\nConnection: Upgrade\r\nSec-WebSocket-Version: 13\r\n" ++
        text "Sec-WebSocket-Key: " := by decide +kernel
    unfold clientNew getAsk
    rw [this, List.take_of_length_le (by omega)]
    rfl
  · intro h
    match nonce, hn with
    | [a0, a1, a2, a3, a4, a5, a6, a7, a8, a9, b0, b1, b2, b3, b4, b5], _ =>
      have hm : (61 : UInt8) ∈ id := by
        rw [h]
        simp [ShaSpec.base64]
      have := hid _ hm
      revert this
      decide +kernel

/-- C116 is violated by the stack: the 24 signs of the key have no end, and if none of the eight bytes behind them is zero the search for
one reads outside of the array. -/
theorem C116_violated_stack (junk : Nat → UInt8) (e : Env) (h0 : (0 : UInt8) ∉ e.stack) (first : Bytes) (hs : List Header) (key rest : Bytes)
    (hr : Request first hs key) : serverRecv e (head first hs ++ rest) (serverNew junk) = none := by
  obtain ⟨X, hX⟩ := cat_create e.grown junk (head first hs ++ rest)
  have e1 := headComplete_head first hs hr.plain (rest ++ X) (head first hs ++ rest).length
  rw [← List.append_assoc] at e1
  obtain ⟨Y, hY⟩ := cat_create e.ansGrown e.ans (head first hs)
  have e2 : copyHead e ⟨head first hs ++ rest ++ X, (head first hs ++ rest).length, 0⟩ (head first hs).length =
      some ⟨head first hs ++ Y, (head first hs).length, 0⟩ := by
    unfold copyHead ptr
    rw [if_pos (by simp), ← hY]
    simp
  unfold serverNew serverRecv recvAsk
  simp only [hX, e1, e2, Option.bind_some, getKey_stack e.stack e.dest h0 first hs key Y _ hr]
  rfl

/-- Such memory. -/
example : ∃ e : Env, (0 : UInt8) ∉ e.stack := ⟨⟨fun _ => 7, fun _ => 7, fun _ => 7, [1, 2, 3, 4, 5, 6, 7, 8], [], fun _ => 7⟩, by decide⟩

end Sis.Hand
