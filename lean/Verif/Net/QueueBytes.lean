import Verif.Net.QueueTheorems
/-
C33 for the bytes in front of a socket (src/core/net/sis_net.uv.c:66-118, 286-326, 781-879), for the queue of shared
objects, and where C33 fails.

Specification.  `waiting` replays a history on a plain byte list: `cat` appends, `send` must hand over the oldest bytes
and removes them, `clear` empties.  The sender asks with `read`, sends what it got, and frees.
-/
namespace Sis.Nq
open Sis

/-- Where the sender stands: nothing taken, taken but not sent, sent but not freed. -/
inductive CPhase
  | idle | ready | sent
deriving DecidableEq, Repr

def cafter (p : CPhase) : CEv × COut → CPhase
  | (.read _ _, .num c) => if c > 0 then .ready else .idle
  | (.send, _) => .sent
  | (.freeRead, _) => .idle
  | (.clear, _) => .idle
  | _ => p

def cphase (h : List (CEv × COut)) : CPhase := h.foldl cafter .idle

/-- The calls allowed.  A piece is at most 16 MB and one byte long. -/
def callowed (p : CPhase) : CEv → Prop
  | .read _ _ => p = .idle
  | .send => p = .ready
  | .freeRead => p ≠ .ready
  | .cat d => d.length ≤ 16777217
  | _ => True

/-- The bytes that must still be waiting after a history, `none` if some answer was wrong. -/
def creplay (q : Option Bytes) (x : CEv × COut) : Option Bytes :=
  match q, x with
  | none, _ => none
  | some q, (.cat d, _) => some (q ++ d)
  | some q, (.send, .bytes d) => if d <+: q then some (q.drop d.length) else none
  | some _, (.send, _) => none
  | some _, (.clear, _) => some []
  | some q, _ => some q

def waiting (h : List (CEv × COut)) : Option Bytes := h.foldl creplay (some [])

/-- Histories of a queue in front of a socket. -/
inductive CHist : List (CEv × COut) → Mems → Prop
  | nil : CHist [] create
  | snoc {h s e s' o} : CHist h s → callowed (cphase h) e → cstep s e = some (s', o) → CHist (h ++ [(e, o)]) s'

private def wbytes (s : Mems) : Bytes := s.wpre.flatMap Node.data ++ s.wnode.data

private structure COk (h : List (CEv × COut)) (s : Mems) : Prop where
  w : W s
  full : ∀ n ∈ s.r, n.data ≠ [] ∧ n.rpos = 0
  rnums : s.rnums = s.r.length
  rsize : s.rsize = (sendBufs s).length
  wt : waiting h = some ((if cphase h = .ready then sendBufs s else []) ++ wbytes s)
  idle : cphase h = .idle → s.r = []

private theorem waiting_snoc (h : List (CEv × COut)) (x : CEv × COut) : waiting (h ++ [x]) = creplay (waiting h) x := by
  simp [waiting, List.foldl_append]

private theorem cphase_snoc (h : List (CEv × COut)) (x : CEv × COut) : cphase (h ++ [x]) = cafter (cphase h) x := by
  simp [cphase, List.foldl_append]

private theorem cread_body {s : Mems} (hw : W s) (hz : s.rsize = 0) (n : Nat) :
    ∃ s', read s n true = some (s', s'.rnums) ∧ W s' ∧ (∀ n ∈ s'.r, n.data ≠ [] ∧ n.rpos = 0) ∧
      s'.rnums = s'.r.length ∧ s'.rsize = (sendBufs s').length ∧ sendBufs s' ++ wbytes s' = wbytes s ∧
      (n = 0 → wbytes s' = []) ∧ (s'.rnums = 0 → wbytes s = []) := by
  unfold read
  rw [if_neg (by omega)]
  simp only [if_true]
  have hm : W (moveRead s) := W_moveRead hw
  obtain ⟨s', mv, rest, e1, e2, e3, e4, e5, e6, e7, e8, e9, e10⟩ :=
    readLoop_spec (if (n : Int) = 0 then ((moveRead s).wuses : Int) else n) _ _ hm rfl
  rw [e1]
  have hr : (moveRead s).r = [] := rfl
  have hrn : (moveRead s).rnums = 0 := rfl
  have hrs : (moveRead s).rsize = 0 := rfl
  rw [hr, List.nil_append] at e6
  rw [hrn, Nat.zero_add] at e7
  rw [hrs, Nat.zero_add] at e8
  have hb : wbytes s = (s.wpre ++ [s.wnode]).flatMap Node.data := by simp [wbytes]
  have hb' : wbytes s' = rest.flatMap Node.data := by
    rcases e5 with e5 | ⟨e5, f1, f2⟩
    · rw [e5]; simp [wbytes]
    · rw [e5]; simp [wbytes, f1, f2]
  have e3' : s.wpre ++ [s.wnode] = mv ++ rest := e3
  refine ⟨s', rfl, e2, e6 ▸ e4, by rw [e7, e6], by rw [e8, sendBufs, e6], ?_, ?_, ?_⟩
  · rw [hb, e3', hb', sendBufs, e6, List.flatMap_append]
  · intro hn
    have hu := hm.uses
    obtain ⟨p1, p2⟩ := e9 (by simp) (by rw [hrn]; simp [hn]; omega)
    simp [wbytes, p1, p2]
  · intro h0
    rw [e7] at h0
    have hmv := List.length_eq_zero_iff.1 h0
    have hwh : (whead (moveRead s)).data = [] := by
      refine Classical.byContradiction fun hc => ?_
      refine e10 hc ?_ hmv
      rw [hrn]
      have hu := hm.uses
      have : 0 < used (moveRead s) := by
        unfold used
        cases hp : (moveRead s).wpre with
        | cons a p => simp; omega
        | nil =>
          have : (moveRead s).wnode.data ≠ [] := by rwa [whead, hp] at hc
          simp [this]
      split
      · omega
      · omega
    have hpre : s.wpre = [] := by
      cases hp : s.wpre with
      | nil => rfl
      | cons a p =>
        have : whead (moveRead s) = a := by simp [whead, moveRead, hp]
        rw [this] at hwh
        exact absurd hwh (hw.pre a (by simp [hp])).1
    have : whead (moveRead s) = s.wnode := by simp [whead, moveRead, hpre]
    rw [this] at hwh
    simp [wbytes, hpre, hwh]

private theorem cok_step {h : List (CEv × COut)} {s : Mems} (k : COk h s) (e : CEv)
    (ha : callowed (cphase h) e) : ∃ s' o, cstep s e = some (s', o) ∧ COk (h ++ [(e, o)]) s' := by
  cases e with
  | cat d =>
    obtain ⟨s', e, hw, e1, e2, e3, h4⟩ := write_spec k.w d (fun _ => 1) ha
    have hsb : sendBufs s' = sendBufs s := by rw [sendBufs, e1]; rfl
    refine ⟨s', .unit, by simp [cstep, cat, e], hw, e1 ▸ k.full, by rw [e2, e1]; exact k.rnums,
      by rw [e3, hsb]; exact k.rsize, ?_, ?_⟩
    · rw [waiting_snoc, k.wt, cphase_snoc, hsb]
      simp only [creplay, cafter, List.append_assoc]
      congr 2
      rcases h4 with ⟨p1, p2⟩ | ⟨p1, p2⟩ <;> simp [wbytes, p1, p2]
    · rw [cphase_snoc, e1]; exact k.idle
  | send =>
    have hp : cphase h = .ready := ha
    refine ⟨s, .bytes (sendBufs s), rfl, k.w, k.full, k.rnums, k.rsize, ?_, ?_⟩
    · rw [waiting_snoc, k.wt, cphase_snoc, hp]
      simp [creplay, cafter]
    · rw [cphase_snoc]; simp [cafter]
  | clear =>
    have h1 := moveWrite_w s
    refine ⟨_, _, rfl, W_moveRead (W_moveWrite k.w), by simp [clear, moveRead], rfl, rfl, ?_, fun _ => rfl⟩
    rw [waiting_snoc, k.wt, cphase_snoc]
    simp only [creplay, cafter, wbytes, clear, moveRead]
    simp [h1.1, h1.2.1]
  | freeRead =>
    refine ⟨_, _, rfl, W_moveRead k.w, by simp [moveRead], rfl, rfl, ?_, fun _ => rfl⟩
    rw [waiting_snoc, k.wt, cphase_snoc]
    have : cphase h ≠ .ready := ha
    simp [creplay, cafter, wbytes, moveRead, this]
  | size =>
    refine ⟨_, _, rfl, k.w, k.full, k.rnums, k.rsize, ?_, ?_⟩
    · rw [waiting_snoc, k.wt, cphase_snoc]; rfl
    · rw [cphase_snoc]; exact k.idle
  | read n free =>
    have hp : cphase h = .idle := ha
    have hr := k.idle hp
    have hz : s.rsize = 0 := by rw [k.rsize, sendBufs, hr]; rfl
    cases free with
    | false =>
      refine ⟨s, .num 0, by simp [cstep, read, hz], k.w, k.full, k.rnums, k.rsize, ?_, fun _ => hr⟩
      rw [waiting_snoc, k.wt, cphase_snoc, hp]
      simp [creplay, cafter]
    | true =>
      obtain ⟨s', e1, e2, e3, e4, e5, e6, e7, e8⟩ := cread_body k.w hz n
      refine ⟨s', .num s'.rnums, by simp [cstep, e1], e2, e3, e4, e5, ?_, ?_⟩
      · rw [waiting_snoc, k.wt, cphase_snoc, hp]
        simp only [creplay, cafter]
        rw [if_neg (by simp), List.nil_append]
        by_cases h0 : s'.rnums > 0
        · simp [h0, e6]
        · simp only [h0, if_false]
          rw [if_neg (by simp), List.nil_append, ← e6]
          have : s'.r = [] := List.length_eq_zero_iff.1 (by omega)
          simp [sendBufs, this]
      · rw [cphase_snoc]
        simp only [cafter]
        intro hi
        by_cases h0 : s'.rnums > 0
        · simp [h0] at hi
        · exact List.length_eq_zero_iff.1 (by omega)

private theorem cok_hist {h : List (CEv × COut)} {s : Mems} (H : CHist h s) : COk h s := by
  induction H with
  | nil => exact ⟨W_create, by simp [create], rfl, rfl, rfl, fun _ => rfl⟩
  | snoc _ ha hs ih =>
    obtain ⟨s', o, e, r⟩ := cok_step ih _ ha
    rw [hs] at e
    cases e
    exact r

/-- C33, part: no allowed call of the sending side writes outside a buffer or lets a counter go below zero. -/
theorem C33_bytes_never_fault_partial {h : List (CEv × COut)} {s : Mems} (H : CHist h s) (e : CEv)
    (ha : callowed (cphase h) e) : ∃ s' o, cstep s e = some (s', o) := by
  obtain ⟨s', o, e, _⟩ := cok_step (cok_hist H) e ha
  exact ⟨s', o, e⟩

/-- C33, part: the socket gets the bytes in the order they were put in, every byte once. -/
theorem C33_bytes_fifo_partial {h : List (CEv × COut)} {s : Mems} (H : CHist h s) : ∃ q, waiting h = some q :=
  ⟨_, (cok_hist H).wt⟩

/-- The bytes put in. -/
def bytesIn (h : List (CEv × COut)) : Bytes :=
  h.flatMap fun x => match x.1 with
    | .cat d => d
    | _ => []

/-- The bytes handed to the socket. -/
def bytesSent (h : List (CEv × COut)) : Bytes :=
  h.flatMap fun x => match x with
    | (.send, .bytes d) => d
    | _ => []

/-- C33, part: without `clear`, the bytes sent followed by the bytes waiting are the bytes put in. -/
theorem C33_bytes_conserved_partial {h : List (CEv × COut)} {s : Mems} (H : CHist h s) (hc : ∀ x ∈ h, x.1 ≠ .clear) :
    ∃ q, waiting h = some q ∧ bytesIn h = bytesSent h ++ q := by
  induction H with
  | nil => exact ⟨[], rfl, rfl⟩
  | @snoc h s e s' o H ha hs ih =>
    obtain ⟨q, h1, h2⟩ := ih fun x hx => hc x (by simp [hx])
    obtain ⟨q', h3⟩ := C33_bytes_fifo_partial (.snoc H ha hs)
    refine ⟨q', h3, ?_⟩
    have hne := hc (e, o) (by simp)
    rw [waiting_snoc, h1] at h3
    simp only [bytesIn, bytesSent, List.flatMap_append, List.flatMap_cons, List.flatMap_nil, List.append_nil] at h2 ⊢
    rw [h2]
    cases e with
    | clear => exact absurd rfl hne
    | send =>
      cases o with
      | bytes d =>
        simp only [creplay] at h3
        split at h3
        · next hp =>
          obtain ⟨t, rfl⟩ := hp
          simp at h3
          subst h3
          simp
        · cases h3
      | unit => simp [creplay] at h3
      | num n => simp [creplay] at h3
    | cat d => simp [creplay] at h3; subst h3; simp
    | read n f => simp [creplay] at h3; subst h3; simp
    | freeRead => simp [creplay] at h3; subst h3; simp
    | size => simp [creplay] at h3; subst h3; simp

/-- C33, part: one round of the sender hands over everything that was waiting; nothing is left behind. -/
theorem C33_send_round_partial {h : List (CEv × COut)} {s : Mems} (H : CHist h s) (hp : cphase h = .idle) :
    ∃ q s' c, waiting h = some q ∧ crun s [.read 0 true, .send, .freeRead, .size] =
      some (s', [(.read 0 true, .num c), (.send, .bytes q), (.freeRead, .num c), (.size, .num 0)]) ∧
      (c = 0 ↔ q = []) := by
  have k := cok_hist H
  have hr := k.idle hp
  have hz : s.rsize = 0 := by rw [k.rsize, sendBufs, hr]; rfl
  obtain ⟨s', e1, e2, e3, e4, e5, e6, e7, e8⟩ := cread_body k.w hz 0
  have hw0 := e7 rfl
  rw [hw0, List.append_nil] at e6
  have e1' : read s (0 : Int) true = some (s', s'.rnums) := e1
  have hws : s'.wsize = 0 := by
    have hx : s'.wsize = (wbytes s').length := by rw [e2.size]; simp [wbytes]
    rw [hx, hw0]; rfl
  refine ⟨wbytes s, moveRead s', s'.rnums, ?_, ?_, fun h0 => e8 h0, fun h0 => ?_⟩
  · rw [k.wt, hp]; simp
  · simp only [crun, cstep, Int.natCast_zero, e1', Option.map_some, Option.bind_some, freeRead, size, e6]
    simp [moveRead, hws]
  · rw [h0] at e6
    rw [e4]
    cases hrr : s'.r with
    | nil => rfl
    | cons a t =>
      have := e3 a (by simp [hrr])
      rw [sendBufs, hrr, List.flatMap_cons] at e6
      exact absurd (List.append_eq_nil_iff.1 e6).1 this.1

/-- C33, part: the reported size, when nothing is on its way, is the number of bytes waiting. -/
theorem C33_bytes_size_partial {h : List (CEv × COut)} {s : Mems} (H : CHist h s) (hp : cphase h ≠ .sent) :
    ∃ q, waiting h = some q ∧ cstep s .size = some (s, .num q.length) := by
  have k := cok_hist H
  refine ⟨_, k.wt, ?_⟩
  have hx : s.wsize = (wbytes s).length := by rw [k.w.size]; simp [wbytes]
  rw [cstep, size, hx, k.rsize]
  congr 3
  cases hc : cphase h with
  | idle => rw [if_neg (by simp), sendBufs, k.idle hc]; simp
  | ready => simp
  | sent => exact absurd hc hp

def csampleEvs : List CEv :=
  [.cat [1, 2], .cat [3], .read 0 true, .cat [4], .send, .cat [5, 6], .freeRead, .read 0 false, .read 0 true, .send, .freeRead]

example : (crun create csampleEvs).map (fun x => bytesSent x.2) = some [1, 2, 3, 4, 5, 6] := by decide +kernel

/-- The hypotheses are met: a history with data on the way and data waiting. -/
example : ∃ h s, CHist h s ∧ cphase h = .ready ∧ waiting h = some [1, 2, 4] := by
  refine ⟨_, _, .snoc (e := .cat [4]) (.snoc (e := .read 0 true) (.snoc (e := .cat [1, 2]) .nil (by simp [callowed])
    rfl) rfl rfl) (by simp [callowed]) rfl, rfl, ?_⟩
  decide +kernel

/-! ### Where C33 fails -/

/-- C33 does not hold for large pieces: while anything waits in the only buffer, putting in more than 16 MB and one byte
writes behind the end of a newly allocated buffer, whatever the bytes. -/
theorem C33_violated_large_piece (d : Bytes) (hd : d.length > 16777217) :
    (crun create [.cat [1]]).isSome ∧ crun create [.cat [1], .cat d] = none := by
  constructor
  · decide +kernel
  · obtain ⟨s1, h1, hn, hp⟩ : ∃ s1, cat create [1] = some s1 ∧ s1.wnode = ⟨16777217, [1], 0, 1⟩ ∧ s1.wpost = [] :=
      ⟨⟨[], ⟨16777217, [1], 0, 1⟩, [], 1, 1, 1, [], 0, 0, 64⟩, by decide +kernel, rfl, rfl⟩
    have h2 : ∀ s : Mems, s.wnode = ⟨16777217, [1], 0, 1⟩ → s.wpost = [] → cat s d = none := by
      intro s e1 e2
      have hf : findNode d.length (s.wnode :: s.wpost) = none := by
        rw [e1, e2, findNode]
        simp only [List.length_cons, List.length_nil]
        rw [if_pos (by omega), if_neg (by omega)]
        rfl
      simp only [cat, write, resetNode, hf]
      rw [if_pos]
      simp only [Node.create, List.length_nil, memSize]
      omega
    simp only [crun, cstep, h1, Option.map_some, Option.bind_some, h2 s1 hn hp]
    rfl

example : ∃ d : Bytes, d.length > 16777217 := ⟨List.replicate 16777218 0, by rw [List.length_replicate]; decide⟩

/-- The same for received packets: with their 4 bytes of size. -/
theorem C33_violated_large_packet (d : Bytes) (hd : d.length + 4 > 16777217) :
    (run create [.push [1]]).isSome ∧ run create [.push [1], .push d] = none := by
  constructor
  · decide +kernel
  · obtain ⟨s1, h1, hn, hp⟩ : ∃ s1, push create [1] = some s1 ∧ s1.wnode = ⟨16777217, [1, 0, 0, 0, 1], 0, 1⟩ ∧
        s1.wpost = [] :=
      ⟨⟨[], ⟨16777217, [1, 0, 0, 0, 1], 0, 1⟩, [], 1, 1, 5, [], 0, 0, 64⟩, by decide +kernel, rfl, rfl⟩
    have h2 : push s1 d = none := by
      have hl : (leBytes 4 d.length ++ d).length = d.length + 4 := enc_length d
      have hf : findNode (d.length + 4) (s1.wnode :: s1.wpost) = none := by
        rw [hn, hp, findNode]
        simp only [List.length_cons, List.length_nil]
        rw [if_pos (by omega), if_neg (by omega)]
        rfl
      simp only [push, write, hl, resetNode, hf]
      rw [if_pos]
      simp only [Node.create, List.length_nil, memSize]
      omega
    simp only [run, step, h1, Option.map_some, Option.bind_some, h2]
    rfl

private def n1 (d : Bytes) (p : Nat) : Node := ⟨16777217, enc d, p, 1⟩
private def n2 (p : Nat) : Node := ⟨16777217, [1, 0, 0, 0, 7], p, 1⟩
private def n0 : Node := ⟨16777217, [], 0, 0⟩

private theorem mid1 (d : Bytes) (he : (enc d).length = 16777217) :
    push create d = some ⟨[], n1 d 0, [], 1, 1, 16777217, [], 0, 0, 64⟩ := by
  have hl : (leBytes 4 d.length ++ d).length = 16777217 := he
  simp [push, write, hl, resetNode, create, Node.create, memSize, findNode, List.length_nil, enc, n1]

private theorem mid2 (d : Bytes) (he : (enc d).length = 16777217) :
    push ⟨[], n1 d 0, [], 1, 1, 16777217, [], 0, 0, 64⟩ [7] =
      some ⟨[n1 d 0], n2 0, [], 2, 2, 16777222, [], 0, 0, 64⟩ := by
  have hb : leBytes 4 1 ++ [7] = [1, 0, 0, 0, 7] := by decide +kernel
  simp [push, write, resetNode, findNode, he, Node.create, memSize, n1, n2, hb]

private theorem mid3' (x y : Node) (hx : x.data.length > 0) (hy : y.data.length > 0) :
    read ⟨[x], y, [], 2, 2, x.data.length + y.data.length, [], 0, 0, 64⟩ 0 true =
      some (⟨[], Node.create memSize, [], 1, 0, 0, [x, y], 2, x.data.length + y.data.length, 64⟩, 2) := by
  have h : ¬ x.data.length + y.data.length < x.data.length := by omega
  simp [read, moveRead, keep, readLoop, takeOne, whead, hx, hy, h]

private theorem mid3 (d : Bytes) (he : (enc d).length = 16777217) :
    read ⟨[n1 d 0], n2 0, [], 2, 2, 16777222, [], 0, 0, 64⟩ 0 true =
      some (⟨[], n0, [], 1, 0, 0, [n1 d 0, n2 0], 2, 16777222, 64⟩, 2) := by
  have h1 : (n1 d 0).data.length = 16777217 := he
  have h2 : (n2 0).data.length = 5 := rfl
  have := mid3' (n1 d 0) (n2 0) (by omega) (by omega)
  rw [h1, h2] at this
  exact this

private theorem mid4 (d : Bytes) (hd : d.length = 16777213) (he : (enc d).length = 16777217) :
    pop ⟨[], n0, [], 1, 0, 0, [n1 d 0, n2 0], 2, 16777222, 64⟩ =
      some (⟨[], n0, [], 1, 0, 0, [n1 d 16777217, n2 0], 2, 5, 64⟩, some d) := by
  have hh : Holds (n1 d 0) [d] := ⟨Nat.zero_le _, by simp [n1], by
    intro m hm; rw [List.mem_singleton.1 hm, Small, hd]; omega⟩
  have h4 := (popHead_msg (s := ⟨[], n0, [], 1, 0, 0, [n1 d 0, n2 0], 2, 16777222, 64⟩) (rest := [n2 0]) hh
    (by rw [hd]; simp only; omega)).1
  have hpos : ¬ (n1 d 0).rpos ≥ (n1 d 0).data.length := by
    show ¬ 0 ≥ (enc d).length
    omega
  have e1 : 16777222 - (16777213 + 4) = 5 := by omega
  have e2 : (n1 d 0).rpos + (16777213 + 4) = 16777217 := by
    have : (n1 d 0).rpos = 0 := rfl
    rw [this]
  simp only [pop]
  rw [if_neg hpos, h4, hd]
  simp only [e1, e2]
  rfl

private theorem mid5 (d : Bytes) (he : (enc d).length = 16777217) :
    read ⟨[], n0, [], 1, 0, 0, [n1 d 16777217, n2 0], 2, 5, 64⟩ 0 true =
      some (⟨[], n0, [], 1, 0, 0, [n1 d 16777217, n2 0], 2, 5, 64⟩, 0) := by
  simp [read, he, n1]

private theorem mid6 (d : Bytes) (he : (enc d).length = 16777217) :
    pop ⟨[], n0, [], 1, 0, 0, [n1 d 16777217, n2 0], 2, 5, 64⟩ =
      some (⟨[], n0, [], 1, 0, 0, [n2 5, n0], 2, 0, 64⟩, some [7]) := by
  have e4 : leVal [1, 0, 0, 0] = 1 := by decide +kernel
  simp [pop, he, popHead, takeBytes, e4, Node.clear, n1, n2, n0]

/-- Outside the protocol: a consumer that asks again before it has popped everything can be told that nothing is there
although a packet is waiting (the case the code reports as `mems_read warn`). -/
theorem C33_violated_read_midway (d : Bytes) (hd : d.length = 16777213) :
    (run create [.push d, .push [7], .read 0 true, .pop, .read 0 true, .pop]).map (fun x => x.2.map Prod.snd) =
      some [.unit, .unit, .num 2, .msg (some d), .num 0, .msg (some [7])] := by
  have he : (enc d).length = 16777217 := by rw [enc_length]; omega
  simp only [run, step, Int.natCast_zero, mid1 d he, mid2 d he, mid3 d he, mid4 d hd he, mid5 d he, mid6 d he,
    Option.map_some, Option.bind_some, List.map_cons, List.map_nil]

/-! ### The queue of shared objects -/

inductive OEv
  | push (o : Nat × Nat)
  | read (n : Nat) (free : Bool)
  | freeRead
deriving DecidableEq, Repr

/-- Histories of a queue of objects; the second list are the objects the consumer has freed, in order. -/
inductive OHist : List OEv → List (Nat × Nat) → Objs → Prop
  | nil : OHist [] [] {}
  | push {h f s} (o) : OHist h f s → OHist (h ++ [.push o]) f (s.push o)
  | read {h f s} (n free) : OHist h f s → OHist (h ++ [.read n free]) f (s.read n free).1
  | freeRead {h f s s' c} : OHist h f s → s.freeRead = some (s', c) → OHist (h ++ [.freeRead]) (f ++ s.r) s'

/-- The objects pushed. -/
def objsIn (h : List OEv) : List (Nat × Nat) :=
  h.filterMap fun e => match e with
    | .push o => some o
    | _ => none

private theorem loop_spec (n : Nat) : ∀ (w : List (Nat × Nat)) (s : Objs), s.w = w → s.wnums = w.length →
    s.rnums = s.r.length →
    (Objs.loop n w s).r ++ (Objs.loop n w s).w = s.r ++ w ∧ (Objs.loop n w s).wnums = (Objs.loop n w s).w.length ∧
    (Objs.loop n w s).rnums = (Objs.loop n w s).r.length ∧ (Objs.loop n w s).size = s.size ∧
    (w ≠ [] → (Objs.loop n w s).rnums > 0) := by
  intro w
  induction w with
  | nil => intro s h1 h2 h3; simp [Objs.loop, h1, h2, h3]
  | cons o w ih =>
    intro s h1 h2 h3
    unfold Objs.loop
    simp only
    split
    · refine ⟨by simp, by simp [h2], by simp [h3], rfl, by simp⟩
    · obtain ⟨e1, e2, e3, e4, e5⟩ := ih { s with rnums := s.rnums + 1, wnums := s.wnums - 1, r := s.r ++ [o], w := w } rfl
        (by simp [h2]) (by simp [h3])
      refine ⟨by rw [e1]; simp, e2, e3, e4, fun _ => ?_⟩
      rw [e3]
      cases w with
      | nil => simp [Objs.loop]
      | cons a b => rw [← e3]; exact e5 (by simp)

/-- C33, part, for shared objects: the objects freed, those the consumer holds and those waiting are the objects pushed,
in order; the counts and the size are right; freeing never lets the size go below zero; and a reading with the lock
free gives something exactly if something is there. -/
theorem C33_objects_partial {h : List OEv} {f : List (Nat × Nat)} {s : Objs} (H : OHist h f s) :
    objsIn h = f ++ (s.r ++ s.w) ∧ s.rnums = s.r.length ∧ s.wnums = s.w.length ∧
    s.size = ((s.r ++ s.w).map Prod.snd).sum ∧ s.freeRead.isSome ∧
    ∀ n, ((s.read n true).2 = 0 ↔ s.r ++ s.w = []) ∧ (s.read n true).2 = (s.read n true).1.r.length := by
  have inv : objsIn h = f ++ (s.r ++ s.w) ∧ s.rnums = s.r.length ∧ s.wnums = s.w.length ∧
      s.size = ((s.r ++ s.w).map Prod.snd).sum := by
    induction H with
    | nil => simp [objsIn]
    | push o _ ih =>
      obtain ⟨i1, i2, i3, i4⟩ := ih
      have : ∀ l : List OEv, objsIn (l ++ [.push o]) = objsIn l ++ [o] := by simp [objsIn]
      refine ⟨by rw [this, i1]; simp [Objs.push], i2, by simp [Objs.push, i3], by simp [Objs.push, i4]; omega⟩
    | read n free _ ih =>
      obtain ⟨i1, i2, i3, i4⟩ := ih
      have : ∀ l : List OEv, objsIn (l ++ [.read n free]) = objsIn l := by simp [objsIn]
      rw [this, i1]
      unfold Objs.read
      split
      · exact ⟨rfl, i2, i3, i4⟩
      · next h0 =>
        cases free with
        | false => exact ⟨rfl, i2, i3, i4⟩
        | true =>
          simp only [if_true]
          split
          · have hr : ∀ {s : Objs}, s.rnums = s.r.length → ¬ s.rnums > 0 → s.r = [] := fun a b =>
              List.length_eq_zero_iff.1 (by omega)
            have := hr i2 h0
            simp [this, i3, i4]
          · obtain ⟨e1, e2, e3, e4, -⟩ := loop_spec n _ _ rfl i3 i2
            exact ⟨by rw [e1], e3, e2, by rw [e4, e1, i4]⟩
    | freeRead _ hs ih =>
      obtain ⟨i1, i2, i3, i4⟩ := ih
      have : ∀ l : List OEv, objsIn (l ++ [.freeRead]) = objsIn l := by simp [objsIn]
      rw [this, i1]
      unfold Objs.freeRead at hs
      split at hs
      · cases hs
      · simp only [Option.some.injEq, Prod.mk.injEq] at hs
        obtain ⟨rfl, -⟩ := hs
        simp [i3, i4]
  obtain ⟨i1, i2, i3, i4⟩ := inv
  refine ⟨i1, i2, i3, i4, ?_, fun n => ?_⟩
  · unfold Objs.freeRead
    rw [if_neg (by rw [i4]; simp)]
    rfl
  · unfold Objs.read
    by_cases h0 : s.rnums > 0
    · rw [if_pos h0]
      have : s.r ≠ [] := fun e => by rw [i2, e] at h0; simp at h0
      exact ⟨⟨fun h => by simp only at h; omega, fun h => absurd (List.append_eq_nil_iff.1 h).1 this⟩, i2⟩
    · rw [if_neg h0]
      have hr : s.r = [] := List.length_eq_zero_iff.1 (by omega)
      simp only [if_true]
      split
      · simp [hr, i3, List.length_eq_zero_iff]
      · obtain ⟨e1, e2, e3, e4, e5⟩ := loop_spec n _ _ rfl i3 i2
        refine ⟨⟨fun h => ?_, fun h => ?_⟩, e3⟩
        · rw [hr, List.nil_append]
          exact Classical.byContradiction fun hc => by have := e5 hc; omega
        · rw [← e1] at h
          rw [e3, (List.append_eq_nil_iff.1 h).1]; rfl

example : ∃ h f s, OHist h f s ∧ f = [(1, 10)] ∧ s.r = [] ∧ s.w = [(2, 20), (3, 5)] :=
  ⟨_, _, _, .push (3, 5) (.freeRead (.push (2, 20) (.read 1 true (.push (1, 10) .nil))) rfl), rfl, rfl, rfl⟩

end Sis.Nq
