import Verif.Mem.MemdbLemmas
namespace Sis.Memdb
open Sis Msg Json

/-! ### C113 -/

/-- C113. After any history of requests of any clients, a client that is logged in and asks for a subject gets exactly one answer, with
its own name, number, service, command and subject: the text the subject holds, or that there is none.  Missing: texts with a zero
byte (`C113_violated_zero`), subjects that differ in case only (`C113_violated_case`), `init` sent by a client
(`C113_violated_init`), requests with a tag of their own (`C113_violated_tag`). -/
theorem C113_get_partial (h : List Req) (w : W) (o) (hr : run start h = some (w, o)) (r : Req) (k : Bytes) (hl : 0 ≤ r.level)
    (hg : Says r "get") (hs : r.m.subject = some k) (hk : fold k ≠ []) (ht : r.m.sw.tag = false) :
    ∃ a, serve w r = some (w, [(r.cid, a)]) ∧ a.bytes = false ∧
      match held k h with
      | none => content a = { content r.m with tag := some (-3) }
      | some v => content a = { content r.m with tag := some 0, info := if v = [] then none else some v } := by
  rw [serve_in w r hl, method_of (c := .get) hg (by simp [methods])]
  simp only [exec, hs, Option.bind_some, run_held hr k hk]
  cases held k h with
  | none => exact ⟨_, rfl, by simp [replyOk, setTag], by simp [replyOk, setTag, content]⟩
  | some v =>
    refine ⟨_, rfl, ?_, ?_⟩
    · unfold replyOk setBuf
      by_cases hv : v = [] <;> simp [hv, ht]
    · unfold replyOk setBuf
      by_cases hv : v = [] <;> simp [hv, ht, content, hs]

theorem held_append (k : Bytes) (a b : List Req) : held k (a ++ b) = b.foldl (heldStep k) (held k a) := by
  simp [held, List.foldl_append]

theorem held_rest (k : Bytes) (h : List Req) (a : Option Bytes)
    (hq : ∀ q ∈ h, 0 ≤ q.level → ¬ Says q "init" ∧ (Says q "set" → ∀ s, q.m.subject = some s → fold s ≠ fold k)) :
    h.foldl (heldStep k) a = a := by
  induction h generalizing a with
  | nil => rfl
  | cons q h ih =>
    have h1 : heldStep k a q = a := by
      unfold heldStep
      by_cases hl : q.level < 0
      · rw [if_pos hl]
      · obtain ⟨e1, e2⟩ := hq q (by simp) (by omega)
        rw [if_neg hl, if_neg e1]
        by_cases hs : Says q "set"
        · rw [if_pos hs]
          have := e2 hs
          cases hj : q.m.subject with
          | none => rfl
          | some s =>
            cases q.m.info with
            | none => rfl
            | some v => simp only; rw [if_neg (this s hj)]
        · rw [if_neg hs]
    rw [List.foldl_cons, h1]
    exact ih a fun x hx => hq x (by simp [hx])

theorem upTo0_id {v : Bytes} (h : (0 : UInt8) ∉ v) : upTo0 v = v := by
  unfold upTo0
  induction v with
  | nil => rfl
  | cons a v ih =>
    have : (a != 0) = true := by
      simp only [bne_iff_ne, ne_eq]
      intro e; exact h (by simp [e])
    rw [List.takeWhile_cons, if_pos this, ih fun e => h (by simp [e])]

/-- C113, the last `set` counts: whoever sent it and whatever came before, until the next one to the same subject everybody who
asks gets that text, whatever happens to other subjects and subscriptions. -/
theorem C113_last_set_partial (h1 h2 : List Req) (q r : Req) (k v : Bytes) (w : W) (o)
    (hr : run start (h1 ++ q :: h2) = some (w, o))
    (hq : 0 ≤ q.level) (hqs : Says q "set") (hqk : q.m.subject = some k) (hqv : q.m.info = some v) (hv0 : (0 : UInt8) ∉ v) (hv : v ≠ [])
    (hrest : ∀ x ∈ h2, 0 ≤ x.level → ¬ Says x "init" ∧ (Says x "set" → ∀ s, x.m.subject = some s → fold s ≠ fold k))
    (hl : 0 ≤ r.level) (hg : Says r "get") (hs : r.m.subject = some k) (hk : fold k ≠ []) (ht : r.m.sw.tag = false) :
    ∃ a, serve w r = some (w, [(r.cid, a)]) ∧ content a = { content r.m with tag := some 0, info := some v } := by
  obtain ⟨a, e1, -, e2⟩ := C113_get_partial _ w o hr r k hl hg hs hk ht
  have : held k (h1 ++ q :: h2) = some v := by
    rw [held_append, List.foldl_cons, held_rest k h2 _ hrest]
    unfold heldStep
    rw [if_neg (by omega), if_neg (says_inj hqs (by decide +kernel)), if_pos hqs, hqk, hqv]
    simp only
    rw [if_true, upTo0_id hv0]
  rw [this] at e2
  simp only [if_neg hv] at e2
  exact ⟨a, e1, e2⟩

/-- C113, publishing: after any history without an `init` from a client, what is published is sent to nobody but subscribers whose
pattern covers the subject, and every message sent is the published one, in binary form. -/
theorem C113_pub_partial (h : List Req) (w w' : W) (o) (hr : run start h = some (w, o))
    (hn : ∀ q ∈ h, 0 ≤ q.level → ¬ Says q "init") (r : Req) (k : Bytes) (hl : 0 ≤ r.level) (hp : Says r "pub")
    (hs : r.m.subject = some k) (hk : CStr k) (hkc : 44 ∉ k) (hc : ∀ q ∈ h, ∀ s, q.m.subject = some s → CStr s)
    (sent) (hw : serve w r = some (w', sent)) :
    ∀ x ∈ sent, (∃ p g, (x.1, p, g) ∈ Sub.active (h.flatMap subOp) ∧ (Sub.low p = Sub.low k ∨ Sub.Covers true (Sub.low p) (Sub.low k))) ∧
      x.2.bytes = true ∧ content x.2 = ⟨[], (content r.m).sno, r.m.service, r.m.cmd, r.m.subject, (content r.m).tag, r.m.info⟩ := by
  obtain ⟨e1, e2⟩ := run_subs hr hn
  rw [serve_in w r hl, method_of (c := .pub) hp (by simp [methods])] at hw
  simp only [exec, Option.map_eq_some_iff, hs, Option.getD_some] at hw
  obtain ⟨cids, h1, h2⟩ := hw
  cases h2
  intro x hx
  simp only [notice, e1, if_true, List.mem_map] at hx
  obtain ⟨c, hcm, rfl⟩ := hx
  have hclean : Sub.Clean (h.flatMap subOp) := by
    intro c p g hm
    obtain ⟨q, hq, hm⟩ := List.mem_flatMap.1 hm
    have : p = q.m.subject.getD [] := by
      unfold subOp at hm
      repeat' (split at hm)
      all_goals simp at hm
      all_goals exact hm.2.1
    rw [this]
    cases hj : q.m.subject with
    | none => intro c hc; simp at hc
    | some s => exact hc q hq s hj
  refine ⟨Sub.C50_only_subscribers_partial _ w.subs w.subs e2 hclean k hk hkc cids (by simp [Sub.step, h1]) c hcm, rfl, ?_⟩
  have : ∀ s : Option Bytes, (if s.isSome then some (s.getD []) else none) = s := by intro s; cases s <;> rfl
  simp [content, relay, this, hs]

/-- C113, publishing: a client that subscribed to the subject, and has no other subscription that is a pattern or a head, gets the
message exactly once. -/
theorem C113_pub_once_partial (h : List Req) (w w' : W) (o) (hr : run start h = some (w, o))
    (hn : ∀ q ∈ h, 0 ≤ q.level → ¬ Says q "init") (r : Req) (k : Bytes) (hl : 0 ≤ r.level) (hp : Says r "pub")
    (hs : r.m.subject = some k) (hk : CStr k) (hc : ∀ q ∈ h, ∀ s, q.m.subject = some s → CStr s)
    (sent) (hw : serve w r = some (w', sent)) (cid : Int) (p : Bytes)
    (hsub : (cid, p, false) ∈ Sub.active (h.flatMap subOp)) (hpk : Sub.low p = Sub.low k)
    (hno : ∀ q g, (cid, q, g) ∈ Sub.active (h.flatMap subOp) → g = false ∧ 42 ∉ q ∧ 44 ∉ q) :
    (sent.filter fun x => x.1 = cid).length = 1 := by
  obtain ⟨e1, e2⟩ := run_subs hr hn
  rw [serve_in w r hl, method_of (c := .pub) hp (by simp [methods])] at hw
  simp only [exec, Option.map_eq_some_iff, hs, Option.getD_some] at hw
  obtain ⟨cids, h1, h2⟩ := hw
  cases h2
  have hclean : Sub.Clean (h.flatMap subOp) := by
    intro c p g hm
    obtain ⟨q, hq, hm⟩ := List.mem_flatMap.1 hm
    have : p = q.m.subject.getD [] := by
      unfold subOp at hm
      repeat' (split at hm)
      all_goals simp at hm
      all_goals exact hm.2.1
    rw [this]
    cases hj : q.m.subject with
    | none => intro c hc; simp at hc
    | some s => exact hc q hq s hj
  have hpat : ∀ q : Bytes, 42 ∉ q → 44 ∉ q → Sub.isPattern q = false := by
    intro q a b
    simp only [Sub.isPattern, List.any_eq_false, Sub.comma]
    intro x hx
    simp only [Bool.or_eq_true, beq_iff_eq, not_or]
    exact ⟨fun e => a (e ▸ hx), fun e => b (e ▸ hx)⟩
  have := Sub.C50_exactly_once_partial _ w.subs w.subs e2 hclean k hk cids (by simp [Sub.step, h1]) cid p hsub
    (hpat p (hno p false hsub).2.1 (hno p false hsub).2.2) hpk fun q g hq => ⟨(hno q g hq).1, hpat q (hno q g hq).2.1 (hno q g hq).2.2⟩
  rw [← this]
  simp only [notice, e1, if_true, List.filter_map, List.length_map]
  rw [List.count_eq_length_filter]
  congr 2

/-- C113, publishing: what a subscriber decodes from the bytes it gets is what was published, for messages that announce no list. -/
theorem C113_received_partial (h : List Req) (w w' : W) (o) (hr : run start h = some (w, o))
    (hn : ∀ q ∈ h, 0 ≤ q.level → ¬ Says q "init") (r : Req) (hl : 0 ≤ r.level) (hp : Says r "pub")
    (hsno : r.m.sw.sno = true → -2 ^ 31 ≤ r.m.sno ∧ r.m.sno < 2 ^ 31) (htag : -128 ≤ r.m.tag ∧ r.m.tag < 128) (hlist : ¬ listTag r.m.tag)
    (h1 : short r.m.service) (h2 : short r.m.cmd) (h3 : short r.m.subject) (h4 : short r.m.info)
    (sent) (hw : serve w r = some (w', sent)) :
    ∀ x ∈ sent, ∃ t m', encode x.2 = some t ∧ decode t = some (some m') ∧
      content m' = ⟨[], (content r.m).sno, r.m.service, r.m.cmd, r.m.subject, (content r.m).tag, r.m.info⟩ := by
  obtain ⟨e1, -⟩ := run_subs hr hn
  rw [serve_in w r hl, method_of (c := .pub) hp (by simp [methods])] at hw
  simp only [exec, Option.map_eq_some_iff] at hw
  obtain ⟨cids, -, he⟩ := hw
  cases he
  intro x hx
  simp only [notice, e1, if_true, List.mem_map] at hx
  obtain ⟨c, -, rfl⟩ := hx
  exact C32_relay_partial r.m none r.m.service r.m.cmd r.m.subject ⟨by simp, fun c hc => by simp at hc⟩ hsno htag hlist h1 h2 h3 h4

/-! ### Cases -/

/-- A request of connection `c` with level `l`. -/
def ask (c l : Int) (cmd subject : String) (info : Option Bytes) : Req :=
  { cid := c, level := l,
    m := { bytes := true, sw := { cmd := true, subject := true, info := info.isSome }, cmd := some (str cmd),
           subject := some (str subject), info := info } }

/-- What a sent message says: receiver, tag and text. -/
structure Gist where
  rcv : Int
  tag : Option Int
  info : Option Bytes
deriving DecidableEq

/-- What the sent messages say. -/
def gist (o : List (List (Int × Msg))) : List (List Gist) := o.map (·.map fun x => ⟨x.1, (content x.2).tag, (content x.2).info⟩)

/-- The connections, tags and texts of everything that is sent in a history. -/
def traffic (h : List Req) : Option (List (List Gist)) := (run start h).map fun x => gist x.2

/-- Beside the theorems: two clients, a text, a subscription, a message. -/
example : traffic [ask 1 7 "set" "a" (some (str "x")), ask 2 1 "get" "a" none, ask 2 1 "GET" "b" none, ask 2 1 "sub" "a" none,
    ask 1 7 "pub" "a" (some [1, 0, 2]), ask 3 (-1) "get" "a" none, ask 1 7 "set" "a" none, ask 1 7 "drop" "a" none] =
    some [[⟨1, some 0, some (str "x")⟩], [⟨2, some 0, some (str "x")⟩], [⟨2, some (-3), none⟩], [⟨2, some 1, some (str "1")⟩],
      [⟨2, none, some [1, 0, 2]⟩], [⟨3, some (-2), some (str "no auth.")⟩], [⟨1, some (-2), some (str "no data.")⟩],
      [⟨1, some (-2), some (str "no find method [drop].")⟩]] := by decide +kernel

example : held (str "a") [ask 1 7 "set" "a" (some (str "x")), ask 2 1 "set" "b" (some (str "y"))] = some (str "x") := by decide +kernel

example : Sub.active ([ask 2 1 "sub" "a" none, ask 3 1 "hsub" "a" none, ask 3 1 "unsub" "" none].flatMap subOp) = [(2, str "a", false)] := by
  decide +kernel

/-- C113 (violated). A text with a zero byte is cut at it. -/
theorem C113_violated_zero (a b : Bytes) (ha : (0 : UInt8) ∉ a) (hne : a ≠ []) :
    (run start [ask 1 7 "set" "k" (some (a ++ 0 :: b))]).bind (fun x => (serve x.1 (ask 1 7 "get" "k" none)).map fun y => gist [y.2]) =
      some [[⟨1, some 0, some a⟩]] := by
  have hc : held (str "k") [ask 1 7 "set" "k" (some (a ++ 0 :: b))] = some a := by
    have e : upTo0 (a ++ 0 :: b) = a := by
      have h := upTo0_id ha
      unfold upTo0 at h ⊢
      rw [List.takeWhile_append_of_pos (fun x hx => by
        simp only [bne_iff_ne, ne_eq]; intro e; exact ha (e ▸ hx))]
      simp
    simp only [held, List.foldl_cons, List.foldl_nil, heldStep]
    rw [if_neg (show ¬ (ask 1 7 "set" "k" (some (a ++ 0 :: b))).level < 0 from show ¬ (7 : Int) < 0 by decide), if_neg (says_inj (a := "set") ⟨str "set", rfl, by decide +kernel⟩ (by decide +kernel)), if_pos ⟨str "set", rfl, by decide +kernel⟩]
    simp only [ask, e, if_true]
  have hex : ∃ w o, run start [ask 1 7 "set" "k" (some (a ++ 0 :: b))] = some (w, o) := by
    simp only [run]
    rw [serve_in _ _ (show (0 : Int) ≤ 7 by decide), method_of (t := "set") (c := .set) ⟨str "set", rfl, by decide +kernel⟩ (by simp [methods])]
    simp [exec, ask]
  obtain ⟨w, o, hw⟩ := hex
  obtain ⟨x, e1, -, e2⟩ := C113_get_partial _ w o hw (ask 1 7 "get" "k" none) (str "k") (by decide) ⟨str "get", rfl, by decide +kernel⟩ rfl
    (by decide +kernel) rfl
  rw [hc] at e2
  simp only [if_neg hne] at e2
  rw [hw, Option.bind_some, e1]
  simp only [Option.map_some, gist, List.map_cons, List.map_nil, e2]
  rfl

/-- C113 (violated). Subjects that differ in case only are the same one: the second text replaces the first. -/
theorem C113_violated_case : traffic [ask 1 7 "set" "IF" (some (str "x")), ask 1 7 "set" "if" (some (str "y")), ask 1 7 "get" "IF" none] =
    some [[⟨1, some 0, some (str "x")⟩], [⟨1, some 0, some (str "y")⟩], [⟨1, some 0, some (str "y")⟩]] := by decide +kernel

/-- C113 (violated). A request with a tag of its own is answered with this tag, although the text is there. -/
theorem C113_violated_tag : traffic [ask 1 7 "set" "a" (some (str "x")),
    { ask 1 7 "get" "a" none with m := { (ask 1 7 "get" "a" none).m with tag := -3, sw := { cmd := true, subject := true, tag := true } } }] =
    some [[⟨1, some 0, some (str "x")⟩], [⟨1, some (-3), some (str "x")⟩]] := by decide +kernel

/-- C113 (violated). Levels of access mean nothing here: what a client with any level sends has the effect it has with full rights, so
clients that may only read change what others read. -/
theorem C113_violated_access (w : W) (r : Req) (l : Int) (hl : 0 ≤ l) (hr : 0 ≤ r.level) : serve w { r with level := l } = serve w r := by
  rw [serve_in w r hr, serve_in w { r with level := l } hl]

/-- C113 (violated). `init` is open to every client: after it all texts are gone, and whatever anybody does from then on, nothing that
is published is sent to anyone. -/
theorem C113_violated_init (h : List Req) (w : W) (o) (hr : run start h = some (w, o)) (r : Req) (hl : 0 ≤ r.level)
    (hi : Says r "init") :
    ∃ w1 a, serve w r = some (w1, [(r.cid, a)]) ∧
      (∀ g k, 0 ≤ g.level → Says g "get" → g.m.subject = some k → fold k ≠ [] → g.m.sw.tag = false →
        ∃ b, serve w1 g = some (w1, [(g.cid, b)]) ∧ content b = { content g.m with tag := some (-3) }) ∧
      ∀ h2 w2 o2, run w1 h2 = some (w2, o2) → o2.length = h2.length ∧
        ∀ x ∈ h2.zip o2, 0 ≤ x.1.level → Says x.1 "pub" → x.2 = [] := by
  have hs : serve w r = some (⟨[], Sub.start, false⟩, [(r.cid, replyOk r.m)]) := by
    rw [serve_in w r hl, method_of (c := .init) hi (by simp [methods])]
    rfl
  refine ⟨_, _, hs, ?_, fun h2 w2 o2 h2r => run_unlinked h2r rfl⟩
  intro g k g1 g2 g3 g4 g5
  obtain ⟨b, e1, -, e2⟩ := C113_get_partial (h ++ [r]) _ _ (run_snoc.2 ⟨w, o, _, hr, hs, rfl⟩) g k g1 g2 g3 g4 g5
  have : held k (h ++ [r]) = none := by
    rw [held_snoc]
    unfold heldStep
    rw [if_neg (by omega), if_pos hi]
  rw [this] at e2
  exact ⟨b, e1, e2⟩

example : traffic [ask 2 1 "sub" "a" none, ask 1 7 "set" "a" (some (str "x")), ask 3 1 "init" "" none, ask 1 7 "get" "a" none,
    ask 2 1 "sub" "a" none, ask 1 7 "pub" "a" (some (str "y"))] =
    some [[⟨2, some 1, some (str "1")⟩], [⟨1, some 0, some (str "x")⟩], [⟨3, some 0, none⟩], [⟨1, some (-3), none⟩],
      [⟨2, some 1, some (str "1")⟩], []] := by decide +kernel

/-- C113 (violated). A subscription to a subject with nothing behind its dot ends the server, whoever sends it. -/
theorem C113_violated_crash (l : Int) (hl : 0 ≤ l) : run start [ask 1 l "sub" "k." none] = none := by
  simp only [run]
  rw [serve_in _ _ hl, method_of (t := "sub") (c := .sub) ⟨str "sub", rfl, by decide +kernel⟩ (by simp [methods])]
  simp only [exec, ask]
  decide +kernel

end Sis.Memdb
