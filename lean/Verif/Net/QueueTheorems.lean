import Verif.Net.QueueInv
/-
C33: the queues between the network threads are first in first out and lose nothing.

Specification.  A history is a list of calls with their results.  `packets` replays it on a plain list: a push appends,
a pop that returns a packet removes the first element and must return that element, `clear` empties.  The consumer
follows the protocol of its callers (src/core/net/sis_net.c:676-727, workers/frwdb/frwdb.c:827-840): ask with `read`,
and if that says there is something, pop until nothing comes back, then free.
-/
namespace Sis.Nq
open Sis

/-! ### Specification for packets -/

/-- The packet a call puts in. -/
def packet : Ev → Option Bytes
  | .push d => some d
  | .pushSign g d => some (g :: d)
  | .pushKv k i d => some (leBytes 4 k ++ (leBytes 4 i ++ d))
  | _ => none

/-- Where the consumer stands: nothing asked for, popping, got the last packet. -/
inductive Phase
  | idle | busy | done
deriving DecidableEq, Repr

def after (p : Phase) : Ev × Out → Phase
  | (.read _ _, .num c) => if c > 0 then .busy else .idle
  | (.pop, .msg none) => .done
  | (.pop, .msg (some _)) => .busy
  | (.freeRead, _) => .idle
  | (.clear, _) => .idle
  | _ => p

def phase (h : List (Ev × Out)) : Phase := h.foldl after .idle

/-- The calls allowed.  A packet with its 4 bytes of size is at most 16 MB and one byte long. -/
def allowed (p : Phase) : Ev → Prop
  | .read _ _ => p ≠ .busy
  | .pop => p ≠ .idle
  | .freeRead => p ≠ .busy
  | .push d => d.length + 4 ≤ 16777217
  | .pushSign _ d => d.length + 5 ≤ 16777217
  | .pushKv _ _ d => d.length + 12 ≤ 16777217
  | _ => True

/-- The packets that must still be waiting after a history, `none` if some answer was wrong. -/
def replay (q : Option (List Bytes)) (x : Ev × Out) : Option (List Bytes) :=
  match q, x with
  | none, _ => none
  | some (m :: q), (.pop, .msg (some m')) => if m = m' then some q else none
  | some [], (.pop, .msg (some _)) => none
  | some _, (.clear, _) => some []
  | some q, (e, _) => some (q ++ (packet e).toList)

def packets (h : List (Ev × Out)) : Option (List Bytes) := h.foldl replay (some [])

/-- Histories of a queue. -/
inductive Hist : List (Ev × Out) → Mems → Prop
  | nil : Hist [] create
  | snoc {h s e s' o} : Hist h s → allowed (phase h) e → step s e = some (s', o) → Hist (h ++ [(e, o)]) s'

/-! ### Proofs for packets -/

private structure Ok (h : List (Ev × Out)) (s : Mems) (qr qw : List Bytes) : Prop where
  inv : Inv s qr qw
  pk : packets h = some (qr ++ qw)
  nb : phase h ≠ .busy → qr = []
  ni : phase h ≠ .idle → s.r ≠ []

private theorem packets_snoc (h : List (Ev × Out)) (x : Ev × Out) : packets (h ++ [x]) = replay (packets h) x := by
  simp [packets, List.foldl_append]

private theorem phase_snoc (h : List (Ev × Out)) (x : Ev × Out) : phase (h ++ [x]) = after (phase h) x := by
  simp [phase, List.foldl_append]

private theorem ok_push {h : List (Ev × Out)} {s : Mems} {qr qw : List Bytes} (k : Ok h s qr qw) (e : Ev) (m : Bytes)
    (f : Nat → Nat) (hm : m.length + 4 ≤ 16777217)
    (hs : step s e = (write s (enc m) f).map fun s => (s, Out.unit)) 
    (hph : ∀ p, after p (e, .unit) = p) (hre : ∀ q, replay (some q) (e, .unit) = some (q ++ [m])) :
    ∃ s' o, step s e = some (s', o) ∧ ∃ qr qw, Ok (h ++ [(e, o)]) s' qr qw := by
  obtain ⟨s', e1, e2⟩ := k.inv.write m hm f
  have hr : s'.r = s.r := by
    obtain ⟨s'', g, _, g1, _⟩ := write_spec k.inv.w (enc m) f (by rw [enc_length]; exact hm)
    rw [e1] at g; cases g; exact g1
  refine ⟨s', .unit, by rw [hs, e1]; rfl, qr, qw ++ [m], e2, ?_, ?_, ?_⟩
  · rw [packets_snoc, k.pk, hre, List.append_assoc]
  · rw [phase_snoc, hph]; exact k.nb
  · rw [phase_snoc, hph, hr]; exact k.ni

private theorem ok_step {h : List (Ev × Out)} {s : Mems} {qr qw : List Bytes} (k : Ok h s qr qw) (e : Ev)
    (ha : allowed (phase h) e) : ∃ s' o, step s e = some (s', o) ∧ ∃ qr qw, Ok (h ++ [(e, o)]) s' qr qw := by
  cases e with
  | push d => exact ok_push k _ d _ ha rfl (fun _ => rfl) (fun q => by cases q <;> rfl)
  | pushSign g d =>
    refine ok_push k _ (g :: d) (· + 1) ?_ ?_ (fun _ => rfl) (fun q => by cases q <;> rfl)
    · simp only [allowed] at ha; simp; omega
    · simp [step, pushSign, enc]
  | pushKv a b d =>
    refine ok_push k _ (leBytes 4 a ++ (leBytes 4 b ++ d)) (· + 1) ?_ ?_ (fun _ => rfl)
      (fun q => by cases q <;> rfl)
    · simp only [allowed] at ha; simp; omega
    · have : 4 + (4 + d.length) = d.length + 8 := by omega
      simp [step, pushKv, enc, this]
  | clear =>
    refine ⟨_, _, rfl, [], [], k.inv.clear, ?_, fun _ => rfl, ?_⟩
    · rw [packets_snoc, k.pk]; cases (qr ++ qw) <;> rfl
    · rw [phase_snoc]; simp [after]
  | size =>
    refine ⟨_, _, rfl, qr, qw, k.inv, ?_, ?_, ?_⟩
    · rw [packets_snoc, k.pk]
      cases hq : (qr ++ qw) <;> simp [replay, packet]
    · rw [phase_snoc]; exact k.nb
    · rw [phase_snoc]; exact k.ni
  | freeRead =>
    have hq := k.nb ha
    subst hq
    refine ⟨_, _, rfl, [], qw, k.inv.moveRead, ?_, fun _ => rfl, ?_⟩
    · rw [packets_snoc, k.pk]
      cases qw <;> simp [replay, packet]
    · rw [phase_snoc]; simp [after]
  | pop =>
    rcases pop_body k.inv (k.ni ha) with ⟨m, qr', s', rfl, e1, e2, e3⟩ | ⟨rfl, s', e1, e2, e3⟩
    · refine ⟨s', .msg (some m), by simp [step, e1], qr', qw, e2, ?_, ?_, fun _ => e3⟩
      · rw [packets_snoc, k.pk]; simp [replay]
      · rw [phase_snoc]; simp [after]
    · refine ⟨s', .msg none, by simp [step, e1], [], qw, e2, ?_, fun _ => rfl, fun _ => e3⟩
      rw [packets_snoc, k.pk]
      cases qw <;> simp [replay, packet]
  | read n free =>
    have hq := k.nb ha
    subst hq
    cases free with
    | false =>
      refine ⟨s, .num 0, ?_, [], qw, k.inv, ?_, fun _ => rfl, ?_⟩
      · have : s.rsize = 0 := k.inv.rsize
        simp [step, read, this]
      · rw [packets_snoc, k.pk]; cases qw <;> simp [replay, packet]
      · rw [phase_snoc]; simp [after]
    | true =>
      obtain ⟨s', qr', qw', e1, e2, e3, e4, e5, e6, _⟩ := read_body k.inv n
      refine ⟨s', .num s'.rnums, by simp [step, e1], qr', qw', e2, ?_, ?_, ?_⟩
      · rw [packets_snoc, k.pk, e3]
        cases hq : qr' ++ qw' <;> simp [replay, packet]
      · rw [phase_snoc]
        simp only [after]
        intro hb
        apply e5
        by_cases h0 : s'.rnums > 0
        · simp [h0] at hb
        · omega
      · rw [phase_snoc]
        simp only [after]
        intro hi hr
        have := e6.2 hr
        simp [this] at hi

private theorem ok_hist {h : List (Ev × Out)} {s : Mems} (H : Hist h s) : ∃ qr qw, Ok h s qr qw := by
  induction H with
  | nil => exact ⟨[], [], Inv_create, rfl, fun _ => rfl, by simp [phase]⟩
  | snoc _ ha hs ih =>
    obtain ⟨qr, qw, k⟩ := ih
    obtain ⟨s', o, e, r⟩ := ok_step k _ ha
    rw [hs] at e
    cases e
    exact r

/-! ### Theorems for packets -/

/-- C33, part: no allowed call writes outside a buffer, reads past the data of a buffer or lets a counter go below
zero, after any history. -/
theorem C33_packets_never_fault_partial {h : List (Ev × Out)} {s : Mems} (H : Hist h s) (e : Ev)
    (ha : allowed (phase h) e) : ∃ s' o, step s e = some (s', o) := by
  obtain ⟨qr, qw, k⟩ := ok_hist H
  obtain ⟨s', o, e, _⟩ := ok_step k e ha
  exact ⟨s', o, e⟩

/-- C33, part: every pop returns the oldest packet that was not yet popped. -/
theorem C33_packets_fifo_partial {h : List (Ev × Out)} {s : Mems} (H : Hist h s) : ∃ q, packets h = some q := by
  obtain ⟨qr, qw, k⟩ := ok_hist H
  exact ⟨_, k.pk⟩

/-- The packets put in, in order. -/
def putIn (h : List (Ev × Out)) : List Bytes := h.filterMap fun x => packet x.1

/-- The packets that came out, in order. -/
def cameOut (h : List (Ev × Out)) : List Bytes :=
  h.filterMap fun x => match x with
    | (.pop, .msg m) => m
    | _ => none

/-- C33, part: without `clear`, the packets that came out followed by those waiting are the packets put in: nothing is
lost, repeated or reordered. -/
theorem C33_packets_conserved_partial {h : List (Ev × Out)} {s : Mems} (H : Hist h s) (hc : ∀ x ∈ h, x.1 ≠ .clear) :
    ∃ q, packets h = some q ∧ putIn h = cameOut h ++ q := by
  induction H with
  | nil => exact ⟨[], rfl, rfl⟩
  | @snoc h s e s' o H ha hs ih =>
    obtain ⟨q, h1, h2⟩ := ih fun x hx => hc x (by simp [hx])
    obtain ⟨q', h3⟩ := C33_packets_fifo_partial (.snoc H ha hs)
    refine ⟨q', h3, ?_⟩
    have hne := hc (e, o) (by simp)
    rw [packets_snoc, h1] at h3
    simp only [putIn, cameOut, List.filterMap_append] at h2 ⊢
    rw [h2]
    cases e with
    | clear => exact absurd rfl hne
    | pop =>
      cases o with
      | msg m =>
        cases m with
        | none =>
          cases q <;> simp [replay, packet] at h3 <;> subst h3 <;> simp [packet]
        | some m =>
          cases q with
          | nil => simp [replay] at h3
          | cons a q =>
            simp only [replay] at h3
            split at h3
            · next he => cases h3; subst he; simp [packet]
            · cases h3
      | unit => cases q <;> simp [replay, packet] at h3 <;> subst h3 <;> simp [packet]
      | num n => cases q <;> simp [replay, packet] at h3 <;> subst h3 <;> simp [packet]
    | push d => cases q <;> simp [replay, packet] at h3 <;> subst h3 <;> simp [packet]
    | pushSign g d => cases q <;> simp [replay, packet] at h3 <;> subst h3 <;> simp [packet]
    | pushKv a b d => cases q <;> simp [replay, packet] at h3 <;> subst h3 <;> simp [packet]
    | read n f => cases q <;> simp [replay, packet] at h3 <;> subst h3 <;> simp [packet]
    | freeRead => cases q <;> simp [replay, packet] at h3 <;> subst h3 <;> simp [packet]
    | size => cases q <;> simp [replay, packet] at h3 <;> subst h3 <;> simp [packet]

/-- C33, part: the reported size is that of the packets waiting, each with its 4 bytes of size. -/
theorem C33_size_partial {h : List (Ev × Out)} {s : Mems} (H : Hist h s) :
    ∃ q, packets h = some q ∧ step s .size = some (s, .num (q.map fun m => m.length + 4).sum) := by
  obtain ⟨qr, qw, k⟩ := ok_hist H
  exact ⟨_, k.pk, by rw [step, k.inv.size]; rfl⟩

/-- C33, part: `read` with the lock free says there is something exactly if packets are waiting. -/
theorem C33_read_reports_partial {h : List (Ev × Out)} {s : Mems} (H : Hist h s) (hp : phase h ≠ .busy) (n : Nat) :
    ∃ q s' c, packets h = some q ∧ step s (.read n true) = some (s', .num c) ∧ (c = 0 ↔ q = []) := by
  obtain ⟨qr, qw, k⟩ := ok_hist H
  have hq := k.nb hp
  subst hq
  obtain ⟨s', qr', qw', e1, e2, e3, e4, e5, e6, e7, e8, e9⟩ := read_body k.inv n
  refine ⟨_, s', s'.rnums, k.pk, by simp [step, e1], fun h0 => ?_, fun h0 => ?_⟩
  · rw [e7 h0]; rfl
  · rw [List.nil_append] at h0
    rw [h0] at e3
    have : qr' = [] := (List.append_eq_nil_iff.1 e3.symm).1
    by_cases hc : s'.rnums > 0
    · exact absurd this (e8 hc)
    · omega

private theorem drain_pops {qr : List Bytes} : ∀ {s : Mems}, Inv s qr [] → s.r ≠ [] →
    ∃ s', run s (List.replicate (qr.length + 1) .pop) =
      some (s', qr.map (fun m => (.pop, .msg (some m))) ++ [(.pop, .msg none)]) := by
  induction qr with
  | nil =>
    intro s h hr
    rcases pop_body h hr with ⟨m, qr', s', e, _⟩ | ⟨_, s', e1, e2, e3⟩
    · cases e
    · exact ⟨s', by simp [run, step, e1]⟩
  | cons m qr ih =>
    intro s h hr
    rcases pop_body h hr with ⟨m', qr', s', e, e1, e2, e3⟩ | ⟨e, _⟩
    · cases e
      obtain ⟨s'', e4⟩ := ih e2 e3
      refine ⟨s'', ?_⟩
      rw [List.length_cons, List.replicate_succ]
      simp [run, step, e1, e4]
    · cases e

/-- C33, part: a consumer that asks for everything while the lock is free and then pops until nothing comes back gets
exactly the packets waiting, in order. -/
theorem C33_drain_partial {h : List (Ev × Out)} {s : Mems} (H : Hist h s) (hp : phase h ≠ .busy) :
    ∃ q, packets h = some q ∧ (q ≠ [] → ∃ s' c, c > 0 ∧
      run s (.read 0 true :: List.replicate (q.length + 1) .pop) =
        some (s', (.read 0 true, .num c) :: q.map (fun m => (.pop, .msg (some m))) ++ [(.pop, .msg none)])) := by
  obtain ⟨qr, qw, k⟩ := ok_hist H
  have hq := k.nb hp
  subst hq
  refine ⟨_, k.pk, fun hne => ?_⟩
  obtain ⟨s', qr', qw', e1, e2, e3, e4, e5, e6, e7, e8, e9⟩ := read_body k.inv 0
  rw [e4 rfl, List.append_nil] at e3
  rw [e4 rfl] at e2
  subst e3
  have hc : s'.rnums > 0 := by
    refine Nat.pos_of_ne_zero fun h0 => hne ?_
    rw [e5 h0]; rfl
  obtain ⟨s'', e10⟩ := drain_pops e2 (fun hr => by have := e6.2 hr; omega)
  refine ⟨s'', s'.rnums, hc, ?_⟩
  rw [List.nil_append]
  rw [run]
  have e1' : read s (0 : Int) true = some (s', s'.rnums) := e1
  simp only [step, Int.natCast_zero, e1', Option.map_some, Option.bind_some, e10]
  rfl

/-- A history: three packets by the three kinds of push, one reading, two pops, another push. -/
def sampleEvs : List Ev :=
  [.push [1, 2], .size, .pushSign 9 [3], .read 0 true, .pop, .push [4], .pop, .pushKv 1 2 [5], .pop, .freeRead,
   .read 0 false, .read 1 true, .pop, .pop, .pop, .freeRead]

example : (run create sampleEvs).map (fun x => cameOut x.2) =
    some [[1, 2], [9, 3], [4], [1, 0, 0, 0, 2, 0, 0, 0, 5]] := by decide +kernel

theorem hist_run : ∀ (es : List Ev) (h : List (Ev × Out)) (s s' : Mems) (h' : List (Ev × Out)), Hist h s →
    run s es = some (s', h') → (∀ n, (hn : n < h'.length) → allowed (phase (h ++ h'.take n)) h'[n].1) →
    Hist (h ++ h') s' := by
  intro es
  induction es with
  | nil => intro h s s' h' H e _; simp [run] at e; obtain ⟨rfl, rfl⟩ := e; simpa using H
  | cons e es ih =>
    intro h s s' h' H hr ha
    rw [run] at hr
    obtain ⟨⟨s1, o⟩, h1, h2⟩ := Option.bind_eq_some_iff.1 hr
    obtain ⟨⟨s2, h3⟩, h4, h5⟩ := Option.map_eq_some_iff.1 h2
    simp only [Prod.mk.injEq] at h5
    obtain ⟨rfl, rfl⟩ := h5
    have H1 : Hist (h ++ [(e, o)]) s1 := .snoc H (by
      have := ha 0 (by simp)
      rw [List.take_zero, List.append_nil] at this
      exact this) h1
    have := ih _ _ _ _ H1 h4 fun n hn => by
      have := ha (n + 1) (by simp; omega)
      rw [List.append_assoc]
      exact this
    simpa using this

def allowedB (p : Phase) : Ev → Bool
  | .read _ _ => p != .busy
  | .pop => p != .idle
  | .freeRead => p != .busy
  | .push d => d.length + 4 ≤ 16777217
  | .pushSign _ d => d.length + 5 ≤ 16777217
  | .pushKv _ _ d => d.length + 12 ≤ 16777217
  | _ => true

theorem allowedB_iff (p : Phase) (e : Ev) : allowedB p e = true ↔ allowed p e := by
  cases e <;> simp [allowedB, allowed]

theorem sample_some : (run create sampleEvs).isSome = true := by decide +kernel

/-- The hypotheses of the theorems are met by that history. -/
example : ∃ s h, Hist h s ∧ phase h = .idle ∧ h.length = 16 := by
  have h0 : ∃ s h, run create sampleEvs = some (s, h) ∧ phase h = .idle ∧ h.length = 16 ∧
      ((List.range h.length).all fun n => (h[n]?).elim true fun x => allowedB (phase (h.take n)) x.1) = true := by
    refine ⟨((run create sampleEvs).get sample_some).1, ((run create sampleEvs).get sample_some).2,
      (Option.some_get sample_some).symm, by decide +kernel, by decide +kernel, by decide +kernel⟩
  obtain ⟨s, h, e, e1, e2, e3⟩ := h0
  refine ⟨s, h, ?_, e1, e2⟩
  have := hist_run _ [] _ _ _ .nil e (by
    intro n hn
    have := List.all_eq_true.1 e3 n (List.mem_range.2 hn)
    rw [List.getElem?_eq_getElem hn] at this
    rw [List.nil_append]
    exact (allowedB_iff _ _).1 this)
  simpa using this

end Sis.Nq
