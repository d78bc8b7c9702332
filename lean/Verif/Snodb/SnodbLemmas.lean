import Verif.Snodb.SnodbSpec
/-
Lemmas about the stream of a day.
-/
namespace Sis.Snodb
open Sis

/-- `near` is the number of the latest packet from `B` on that begins a block. -/
def Near (B : Nat) (out : List Bytes) (near : Option Nat) : Prop :=
  (∀ j, near = some j → B ≤ j ∧ ∃ p, out[j]? = some p ∧ begins p = true) ∧
  ∀ i p, B ≤ i → out[i]? = some p → begins p = true → ∃ j, near = some j ∧ i ≤ j

theorem near_lt {B out near} (h : Near B out near) {j} (hj : near = some j) : j < out.length := by
  obtain ⟨_, p, hp, _⟩ := h.1 j hj
  exact (List.getElem?_eq_some_iff.1 hp).1

theorem near_push {B out near} (h : Near B out near) (hB : B ≤ out.length) (p : Bytes) :
    Near B (out ++ [p]) (if begins p then some out.length else near) := by
  constructor
  · intro j hj
    by_cases hb : begins p = true
    · rw [if_pos hb] at hj
      cases hj
      exact ⟨hB, p, by simp, hb⟩
    · rw [if_neg hb] at hj
      obtain ⟨hj2, q, hq, hq2⟩ := h.1 j hj
      have := near_lt h hj
      exact ⟨hj2, q, by rw [List.getElem?_append_left this]; exact hq, hq2⟩
  · intro i q hBi hi hq
    by_cases hlt : i < out.length
    · rw [List.getElem?_append_left hlt] at hi
      obtain ⟨j, hj, hij⟩ := h.2 i q hBi hi hq
      by_cases hb : begins p = true
      · rw [if_pos hb]; exact ⟨out.length, rfl, by omega⟩
      · rw [if_neg hb]; exact ⟨j, hj, hij⟩
    · have hl := (List.getElem?_eq_some_iff.1 hi).1
      simp at hl
      have : i = out.length := by omega
      subst this
      simp at hi
      subst hi
      rw [if_pos hq]
      exact ⟨_, rfl, Nat.le_refl _⟩

/-- The list keeps all; it keeps nothing, for a day; or anything, for ever. -/
inductive Mode
  | all | part | weak
deriving DecidableEq

/-- What holds always; `B` packets were there when the day started. -/
structure Good (m : Mode) (B : Nat) (s : St) : Prop where
  nodup : (s.readers.map (·.cid)).Nodup
  bound : ∀ r ∈ s.readers, ∀ k, r.cursor = .pos k → k ≤ s.out.length
  room : s.gone ≤ s.out.length
  base : B ≤ s.out.length
  zero : m ≠ .part → B = 0
  near : m ≠ .weak → Near B s.out s.near
  gone : m = .all → s.gone = 0
  halt : ∀ r ∈ s.readers, r.status = .stop → r.cursor = .closed
  born : s.status = .none → ∀ r ∈ s.readers, r.cursor = .closed
  idle : m ≠ .weak → ∀ r ∈ s.readers, r.status = .init → r.cursor = .closed ∨ (m = .all ∧ s.status = .init ∧ s.out = [])
  count : s.cur ≤ s.readers.countP (fun r => decide (r.status = .work))

/-- What a subscriber that works has been sent since it was told of the start. -/
structure Serve (m : Mode) (b : Nat) (out : List Bytes) (near : Option Nat) (r : Reader) (v : List Note) : Prop where
  only : ∀ n ∈ v, (∃ p, n = .packet p) ∨ (∃ p, n = .part p) ∨ ∃ d, n = .wait d
  part : ¬ (r.whole = true ∧ r.zip = true) → packets v = []
  live : r.cursor ≠ .closed
  base : ∀ j, near = some j → b ≤ j
  waiting : r.isinit = false → packets v = [] ∧
    (m = .all → r.head = false → ∀ k j, r.cursor = .pos k → near = some j → k ≤ j) ∧
    (m = .all → r.head = true → ∀ k, r.cursor = .pos k → ∀ i p, i < k → out[i]? = some p → begins p = false)
  going : r.isinit = true → ∃ a k, r.cursor = .pos k ∧ a < k ∧ k ≤ out.length ∧
    (r.whole = true ∧ r.zip = true → packets v = (out.take k).drop a) ∧
    (∃ p, out[a]? = some p ∧ begins p = true) ∧
    (m = .all → r.head = true → ∀ i p, i < a → out[i]? = some p → begins p = false) ∧ (r.head = false → b ≤ a)

theorem packets_append (a b : List Note) : packets (a ++ b) = packets a ++ packets b := List.filterMap_append

theorem serve_push {m b out near r v} (h : Serve m b out near r v)
    (hb : ∀ k, r.cursor = .pos k → k ≤ out.length) (hb2 : b ≤ out.length) (p : Bytes) :
    Serve m b (out ++ [p]) (if begins p then some out.length else near) r v := by
  refine ⟨h.only, h.part, h.live, ?_, ?_, ?_⟩
  · intro j hj
    by_cases hbp : begins p = true
    · rw [if_pos hbp] at hj; cases hj; exact hb2
    · rw [if_neg hbp] at hj; exact h.base j hj
  · intro hi
    obtain ⟨h1, h2, h3⟩ := h.waiting hi
    refine ⟨h1, ?_, ?_⟩
    · intro hm hh k j hk hj
      by_cases hbp : begins p = true
      · rw [if_pos hbp] at hj; cases hj; exact hb k hk
      · rw [if_neg hbp] at hj; exact h2 hm hh k j hk hj
    · intro hm hh k hk i q hik hq
      have := hb k hk
      rw [List.getElem?_append_left (by omega)] at hq
      exact h3 hm hh k hk i q hik hq
  · intro hi
    obtain ⟨a, k, h1, h2, h3, h4, ⟨q, h5, h6⟩, h7, h8⟩ := h.going hi
    refine ⟨a, k, h1, h2, by simp; omega, ?_, ⟨q, ?_, h6⟩, ?_, h8⟩
    · intro hw; rw [h4 hw, List.take_append_of_le_length h3]
    · rw [List.getElem?_append_left (by omega)]; exact h5
    · intro hm hh i q hia hq
      rw [List.getElem?_append_left (by omega)] at hq
      exact h7 hm hh i q hia hq

theorem take_succ_drop {out : List Bytes} {k a : Nat} {p : Bytes} (hp : out[k]? = some p) (ha : a ≤ k) :
    (out.take (k + 1)).drop a = (out.take k).drop a ++ [p] := by
  have hk := (List.getElem?_eq_some_iff.1 hp).1
  rw [List.take_succ, hp, List.drop_append_of_le_length (by simp; omega)]
  rfl

theorem serve_read {m : Mode} {B b : Nat} {s : St} {r : Reader} {v : List Note} (h : Serve m b s.out s.near r v)
    (hg0 : Good m B s) (hmw : m ≠ .weak) {r' : Reader} {ns : List Note} (hr : readOne s r = some (r', ns)) :
    Serve m b s.out s.near r' (v ++ ns) := by
  have hn := hg0.near hmw
  unfold readOne at hr
  cases hc : r.cursor with
  | closed => exact absurd hc h.live
  | lost => rw [hc] at hr; cases hr
  | fresh =>
    rw [hc] at hr
    simp only [Option.some.injEq, Prod.mk.injEq] at hr
    obtain ⟨rfl, rfl⟩ := hr
    have hi : r.isinit = false := by
      cases hi : r.isinit with
      | false => rfl
      | true => obtain ⟨a, k, h1, _⟩ := h.going hi; rw [hc] at h1; cases h1
    rw [List.append_nil]
    refine ⟨h.only, h.part, by simp, h.base, ?_, ?_⟩
    · intro _
      refine ⟨(h.waiting hi).1, ?_, ?_⟩
      · intro hm _ k j hk _
        simp only [Cursor.pos.injEq] at hk
        have := hg0.gone hm
        omega
      · intro hm _ k hk i p hik _
        simp only [Cursor.pos.injEq] at hk
        have := hg0.gone hm
        omega
    · intro hi2; rw [hi] at hi2; cases hi2
  | pos k =>
    rw [hc] at hr
    dsimp only at hr
    cases ho : s.out[k]? with
    | none =>
      rw [ho] at hr
      dsimp only at hr
      by_cases hrt : r.realtime = true
      · rw [if_pos hrt] at hr
        simp only [Option.some.injEq, Prod.mk.injEq] at hr
        obtain ⟨rfl, rfl⟩ := hr
        rw [List.append_nil]; exact h
      · rw [if_neg hrt] at hr
        simp only [Option.some.injEq, Prod.mk.injEq] at hr
        obtain ⟨rfl, rfl⟩ := hr
        have hp : packets (v ++ [Note.wait s.date]) = packets v := by
          rw [packets_append]; simp [packets]
        refine ⟨?_, ?_, by simp, h.base, ?_, ?_⟩
        · intro n hn2
          rcases List.mem_append.1 hn2 with h1 | h1
          · exact h.only n h1
          · rw [List.mem_singleton] at h1; exact Or.inr (Or.inr ⟨_, h1⟩)
        · rw [hp]; exact h.part
        · have h3 := h.waiting
          rw [hc] at h3
          rw [hp]; exact h3
        · have h3 := h.going
          rw [hc] at h3
          rw [hp]; exact h3
    | some p =>
      rw [ho] at hr
      simp only [Option.some.injEq, Prod.mk.injEq] at hr
      obtain ⟨h1, h2⟩ := hr
      have honly : ∀ n ∈ v ++ ns, (∃ p, n = .packet p) ∨ (∃ p, n = .part p) ∨ ∃ d, n = .wait d := by
        intro n hn2
        rcases List.mem_append.1 hn2 with h3 | h3
        · exact h.only n h3
        · subst h2
          unfold deliver at h3
          dsimp only at h3
          split at h3
          · split at h3
            · split at h3
              · rw [List.mem_singleton] at h3; exact Or.inl ⟨_, h3⟩
              · cases h3
            · rw [List.mem_singleton] at h3; exact Or.inr (Or.inl ⟨_, h3⟩)
          · cases h3
      have hpns : packets ns = if (deliver s.near k p r).1.isinit = true ∧ r.whole = true ∧ r.zip = true then [p] else [] := by
        subst h2
        unfold deliver
        dsimp only
        cases (r.isinit || (begins p && (r.head || decide (s.near = some k)))) <;> cases r.whole <;> cases r.zip <;> rfl
      have hpart : ¬ (r.whole = true ∧ r.zip = true) → packets (v ++ ns) = [] := by
        intro hw
        rw [packets_append, h.part hw, hpns, if_neg (fun h => hw h.2)]; rfl
      have hlt := (List.getElem?_eq_some_iff.1 ho).1
      have hd : (deliver s.near k p r).1.isinit = (r.isinit || (begins p && (r.head || decide (s.near = some k)))) := rfl
      have hr' : r' = { r with isinit := (r.isinit || (begins p && (r.head || decide (s.near = some k)))), cursor := .pos (k + 1) } := h1.symm
      rw [hd] at hpns
      cases hi : r.isinit with
      | true =>
        rw [hi, Bool.true_or] at hr' hpns
        subst hr'
        obtain ⟨a, k', g1, g2, g3, g4, g5, g6, g7⟩ := h.going hi
        rw [hc] at g1
        simp only [Cursor.pos.injEq] at g1
        subst g1
        refine ⟨honly, hpart, by simp, h.base, fun h3 => (by cases h3), ?_⟩
        intro _
        refine ⟨a, k + 1, rfl, by omega, by omega, ?_, g5, g6, g7⟩
        intro hw
        rw [packets_append, hpns, if_pos ⟨rfl, hw⟩, g4 hw, take_succ_drop ho (by omega)]
      | false =>
        obtain ⟨w1, w2, w3⟩ := h.waiting hi
        rw [hi, Bool.false_or] at hr' hpns
        cases hgo : (begins p && (r.head || decide (s.near = some k))) with
        | true =>
          rw [hgo] at hr' hpns
          subst hr'
          rw [Bool.and_eq_true, Bool.or_eq_true, decide_eq_true_eq] at hgo
          refine ⟨honly, hpart, by simp, h.base, fun h3 => (by cases h3), ?_⟩
          intro _
          refine ⟨k, k + 1, rfl, by omega, by omega, ?_, ⟨p, ho, hgo.1⟩, ?_, ?_⟩
          · intro hw
            rw [packets_append, w1, hpns, if_pos ⟨rfl, hw⟩, take_succ_drop ho (Nat.le_refl _)]
            simp
          · intro hm hh i q hik hq
            exact w3 hm hh k hc i q hik hq
          · intro hh
            have hh' : r.head = false := hh
            rcases hgo.2 with h3 | h3
            · rw [h3] at hh'; cases hh'
            · exact h.base k h3
        | false =>
          rw [hgo] at hr' hpns
          subst hr'
          refine ⟨honly, hpart, by simp, h.base, ?_, fun h3 => by cases h3⟩
          intro _
          refine ⟨?_, ?_, ?_⟩
          · rw [packets_append, w1, hpns]; simp
          · intro hm hh k' j hk' hj
            simp only [Cursor.pos.injEq] at hk'
            subst hk'
            have hle := w2 hm hh k j hc hj
            have hne : k ≠ j := by
              intro hkj
              subst hkj
              obtain ⟨_, q, hq, hq2⟩ := hn.1 k hj
              rw [ho] at hq
              cases hq
              rw [hq2, hj] at hgo
              simp at hgo
            omega
          · intro hm hh k' hk' i q hik hq
            simp only [Cursor.pos.injEq] at hk'
            subst hk'
            by_cases hik2 : i < k
            · exact w3 hm hh k hc i q hik2 hq
            · have : i = k := by omega
              subst this
              rw [ho] at hq
              cases hq
              have hh' : r.head = true := hh
              rw [hh'] at hgo
              simpa using hgo

/-! The messages -/

theorem got_append (cid : Nat) (a b : List (List Out)) : got cid (a ++ b) = got cid a ++ got cid b := by
  simp [got, List.filterMap_append]

theorem got_cons (cid : Nat) (a : List Out) (b : List (List Out)) : got cid (a :: b) = got cid [a] ++ got cid b := by
  rw [← got_append]; rfl

theorem got1_append (cid : Nat) (a b : List Out) : got cid [a ++ b] = got cid [a] ++ got cid [b] := by
  simp [got, List.filterMap_append]

theorem got_sends (cid c : Nat) (x : Option Bytes) (ns : List Note) :
    got cid [ns.map (fun n => Out.send c x n)] = if c = cid then ns else [] := by
  unfold got
  by_cases h : c = cid
  · rw [if_pos h]
    subst h
    induction ns with
    | nil => rfl
    | cons n ns ih => simpa using ih
  · rw [if_neg h]
    induction ns with
    | nil => rfl
    | cons n ns ih => simpa [h] using ih

theorem got_flatMap (cid : Nat) (f : Reader → List Out) (hf : ∀ r, ∀ o ∈ f r, ∃ x n, o = .send r.cid x n) (rs : List Reader)
    (hnd : (rs.map (·.cid)).Nodup) :
    (∀ r ∈ rs, r.cid = cid → got cid [rs.flatMap f] = got cid [f r]) ∧ ((∀ r ∈ rs, r.cid ≠ cid) → got cid [rs.flatMap f] = []) := by
  have hz : ∀ r : Reader, r.cid ≠ cid → got cid [f r] = [] := by
    intro r hr
    unfold got
    rw [List.filterMap_eq_nil_iff]
    intro o ho
    simp at ho
    obtain ⟨x, n, rfl⟩ := hf r o ho
    simp [hr]
  induction rs with
  | nil => exact ⟨fun r hr => by simp at hr, fun _ => rfl⟩
  | cons q rs ih =>
    rw [List.map_cons, List.nodup_cons] at hnd
    obtain ⟨i1, i2⟩ := ih hnd.2
    constructor
    · intro r hr hc
      rw [List.flatMap_cons, got1_append]
      rcases List.mem_cons.1 hr with rfl | hr
      · rw [i2 (fun x hx hxc => hnd.1 (by rw [hc, ← hxc]; exact List.mem_map_of_mem hx)), List.append_nil]
      · have : q.cid ≠ cid := fun h => hnd.1 (by rw [h, ← hc]; exact List.mem_map_of_mem hr)
        rw [hz q this, i1 r hr hc]; rfl
    · intro h
      rw [List.flatMap_cons, got1_append, hz q (h q (by simp)), i2 (fun r hr => h r (by simp [hr]))]; rfl

theorem startNotes_send (e : Env) (d : Nat) (k t : Bytes) (r : Reader) : ∀ o ∈ startNotes e d k t r, ∃ x n, o = .send r.cid x n := by
  intro o ho
  unfold startNotes at ho
  split at ho
  · simp at ho
    rcases ho with h | h | h <;> exact ⟨_, _, h⟩
  · cases ho

theorem stopNote_send (d : Nat) (r : Reader) : ∀ o ∈ stopNote d r, ∃ x n, o = .send r.cid x n := by
  intro o ho
  unfold stopNote at ho
  split at ho
  · cases ho
  · simp at ho; exact ⟨_, _, ho⟩

/-! Putting packets on the list -/

theorem pushes_facts (ps : List Bytes) : ∀ s : St, (pushes s ps).out = s.out ++ ps.filter (· ≠ []) ∧ (pushes s ps).readers = s.readers ∧
    (pushes s ps).gone = s.gone ∧ (pushes s ps).status = s.status ∧ (pushes s ps).cur = s.cur ∧ (pushes s ps).date = s.date ∧
    (∀ B, B ≤ s.out.length → Near B s.out s.near → Near B (pushes s ps).out (pushes s ps).near) ∧
    (∀ m b r v, Serve m b s.out s.near r v → (∀ k, r.cursor = .pos k → k ≤ s.out.length) → b ≤ s.out.length →
      Serve m b (pushes s ps).out (pushes s ps).near r v) := by
  induction ps with
  | nil => intro s; exact ⟨by simp [pushes], rfl, rfl, rfl, rfl, rfl, fun _ _ h => h, fun _ _ _ _ h _ _ => h⟩
  | cons p ps ih =>
    intro s
    obtain ⟨i1, i2, i3, i4, i5, i6, i7, i8⟩ := ih (push s p)
    have hp : pushes s (p :: ps) = pushes (push s p) ps := rfl
    rw [hp]
    by_cases h : p = []
    · have he : push s p = s := by unfold push; rw [if_pos h]
      rw [he] at i1 i2 i3 i4 i5 i6 i7 i8 ⊢
      refine ⟨?_, i2, i3, i4, i5, i6, i7, i8⟩
      rw [i1, List.filter_cons_of_neg (by simp [h])]
    · have he : push s p = { s with out := s.out ++ [p], near := if begins p then some s.out.length else s.near } := by
        unfold push; rw [if_neg h]
      rw [he] at i1 i2 i3 i4 i5 i6 i7 i8 ⊢
      refine ⟨?_, i2, i3, i4, i5, i6, fun B hB hn => i7 B (by simp; omega) (near_push hn hB p), ?_⟩
      · rw [i1, List.filter_cons_of_pos (by simp [h]), List.append_assoc]; rfl
      · intro m b r v hs hb hb2
        refine i8 m b r v (serve_push hs hb hb2 p) ?_ ?_
        · intro k hk
          have := hb k hk
          simp; omega
        · simp; omega

/-! The start of the subscribers -/

theorem started_cid (r : Reader) : (started r).cid = r.cid := by unfold started; split <;> rfl
theorem started_noinit (r : Reader) : (started r).status ≠ .init := by
  unfold started
  split
  · simp
  · assumption

theorem started_of {r : Reader} (h : r.status ≠ .init) : started r = r := by unfold started; rw [if_neg h]

theorem countP_started (rs : List Reader) : rs.countP (fun r => decide (r.status = .work)) + rs.countP (fun r => decide (r.status = .init)) =
    (rs.map started).countP (fun r => decide (r.status = .work)) := by
  induction rs with
  | nil => rfl
  | cons r rs ih =>
    rw [List.map_cons, List.countP_cons, List.countP_cons, List.countP_cons, ← ih]
    cases hr : r.status <;> simp [started, hr] <;> omega

theorem writeInit_facts {e : Env} {s s' : St} {b : Bool} {o : List Out} (hg : s.cur ≤ s.readers.countP (fun r => decide (r.status = .work)))
    (h : writeInit e s = some (s', b, o)) :
    s'.out = s.out ∧ s'.near = s.near ∧ s'.gone = s.gone ∧ s'.dict = s.dict ∧ s'.date = s.date ∧ s'.inputs = s.inputs ∧ s'.keys = s.keys ∧
    s'.sdbs = s.sdbs ∧ s'.ago = s.ago ∧
    (b = false → s' = s ∧ o = []) ∧
    (b = true → s.status ≠ .none ∧ s'.status = .work ∧ s'.readers = s.readers.map started ∧
      s'.cur ≤ s'.readers.countP (fun r => decide (r.status = .work)) ∧
      (s.status = .init → ∃ k t, s.keys = .val k ∧ s.sdbs = .val t) ∧
      ∃ k t, ((∃ r ∈ s.readers, r.status = .init) → s.keys = .val k ∧ s.sdbs = .val t) ∧ o = s.readers.flatMap (startNotes e s.date k t)) := by
  have hnone : (∀ r ∈ s.readers, r.status ≠ .init) → s.readers = s.readers.map started ∧
      ∀ k t, s.readers.flatMap (startNotes e s.date k t) = [] := by
    intro hall
    constructor
    · rw [show s.readers.map started = s.readers.map id from List.map_congr_left fun r hr => started_of (hall r hr)]; simp
    · intro k t
      rw [List.flatMap_eq_nil_iff]
      intro r hr
      unfold startNotes
      rw [if_neg (hall r hr)]
  unfold writeInit at h
  split at h
  · simp only [Option.some.injEq, Prod.mk.injEq] at h
    obtain ⟨rfl, rfl, rfl⟩ := h
    exact ⟨rfl, rfl, rfl, rfl, rfl, rfl, rfl, rfl, rfl, fun _ => ⟨rfl, rfl⟩, fun h => by cases h⟩
  · rename_i hst
    split at h
    · simp only [Option.some.injEq, Prod.mk.injEq] at h
      obtain ⟨rfl, rfl, rfl⟩ := h
      exact ⟨rfl, rfl, rfl, rfl, rfl, rfl, rfl, rfl, rfl, fun _ => ⟨rfl, rfl⟩, fun h => by cases h⟩
    · rename_i hn1
      split at h
      · cases h
      · rename_i hn2
        have hkeys : s.status = .init → ∃ k t, s.keys = .val k ∧ s.sdbs = .val t := by
          intro hi
          have a1 : ¬ (s.keys = .null ∨ s.sdbs = .null) := fun h => hn1 ⟨hi, h⟩
          have a2 : ¬ (s.keys = .freed ∨ s.sdbs = .freed) := fun h => hn2 ⟨hi, h⟩
          cases hk : s.keys with
          | null => exact absurd (Or.inl hk) a1
          | freed => exact absurd (Or.inl hk) a2
          | val k =>
            cases ht : s.sdbs with
            | null => exact absurd (Or.inr ht) a1
            | freed => exact absurd (Or.inr ht) a2
            | val t => exact ⟨k, t, rfl, rfl⟩
        dsimp only at h
        split at h
        · rename_i hlen
          simp only [Option.some.injEq, Prod.mk.injEq] at h
          obtain ⟨rfl, rfl, rfl⟩ := h
          have hall : ∀ r ∈ s.readers, r.status ≠ .init := by
            have hc : s.readers.countP (fun r => decide (r.status = .work)) = s.readers.length := by
              have := List.countP_le_length (l := s.readers) (p := fun r => decide (r.status = .work))
              omega
            rw [List.countP_eq_length] at hc
            intro r hr h2
            have := hc r hr
            rw [h2] at this
            simp at this
          obtain ⟨n1, n2⟩ := hnone hall
          refine ⟨rfl, rfl, rfl, rfl, rfl, rfl, rfl, rfl, rfl, fun h => (by cases h), fun _ => ⟨hst, rfl, n1, hg, hkeys, [], [], ?_, (n2 [] []).symm⟩⟩
          rintro ⟨r, hr, h2⟩
          exact absurd h2 (hall r hr)
        · split at h
          · split at h
            · rename_i k t hk ht
              simp only [Option.some.injEq, Prod.mk.injEq] at h
              obtain ⟨rfl, rfl, rfl⟩ := h
              refine ⟨rfl, rfl, rfl, rfl, rfl, rfl, rfl, rfl, rfl, fun h => (by cases h), fun _ => ⟨hst, rfl, rfl, ?_, hkeys, k, t, fun _ => ⟨hk, ht⟩, rfl⟩⟩
              show s.cur + _ ≤ _
              have := countP_started s.readers
              dsimp only
              omega
            · cases h
          · rename_i hany
            simp only [Option.some.injEq, Prod.mk.injEq] at h
            obtain ⟨rfl, rfl, rfl⟩ := h
            have hall : ∀ r ∈ s.readers, r.status ≠ .init := by
              intro r hr h2
              exact hany (List.any_eq_true.2 ⟨r, hr, by simp [h2]⟩)
            obtain ⟨n1, n2⟩ := hnone hall
            refine ⟨rfl, rfl, rfl, rfl, rfl, rfl, rfl, rfl, rfl, fun h => (by cases h), fun _ => ⟨hst, rfl, n1, hg, hkeys, [], [], ?_, (n2 [] []).symm⟩⟩
            rintro ⟨r, hr, h2⟩
            exact absurd h2 (hall r hr)

theorem nodup_started {rs : List Reader} (h : (rs.map (·.cid)).Nodup) : ((rs.map started).map (·.cid)).Nodup := by
  rw [List.map_map]
  rw [show ((fun r : Reader => r.cid) ∘ started) = (fun r => r.cid) from funext started_cid]
  exact h

theorem good_writeInit {m : Mode} {B : Nat} {e : Env} {s s' : St} {b : Bool} {o : List Out} (hg : Good m B s)
    (h : writeInit e s = some (s', b, o)) : Good m B s' := by
  obtain ⟨f1, f2, f3, f4, f5, f6, f7, f8, f9, f10, f11⟩ := writeInit_facts hg.count h
  cases b with
  | false => rw [(f10 rfl).1]; exact hg
  | true =>
    obtain ⟨g0, g1, g2, g3, _⟩ := f11 rfl
    refine ⟨?_, ?_, by rw [f1, f3]; exact hg.room, by rw [f1]; exact hg.base, hg.zero, ?_, ?_, ?_, fun h => (by rw [g1] at h; cases h), ?_, g3⟩
    · rw [g2]; exact nodup_started hg.nodup
    · rw [g2, f1]
      intro r hr k hk
      obtain ⟨q, hq, rfl⟩ := List.mem_map.1 hr
      unfold started at hk
      split at hk
      · dsimp only at hk
        split at hk
        · cases hk
        · exact hg.bound q hq k hk
      · exact hg.bound q hq k hk
    · rw [f1, f2]; exact hg.near
    · rw [f3]; exact hg.gone
    · rw [g2]
      intro r hr hs
      obtain ⟨q, hq, rfl⟩ := List.mem_map.1 hr
      unfold started at hs ⊢
      split at hs
      · cases hs
      · rename_i hi
        rw [if_neg hi]; exact hg.halt q hq hs
    · rw [g2]
      intro _ r hr hs
      obtain ⟨q, hq, rfl⟩ := List.mem_map.1 hr
      exact absurd hs (started_noinit q)

/-- No subscriber waits for its start. -/
def Busy (s : St) : Prop := ∀ r ∈ s.readers, r.status ≠ .init

theorem busy_writeInit {m : Mode} {B : Nat} {e : Env} {s s' : St} {o : List Out} (hg : Good m B s) (h : writeInit e s = some (s', true, o)) : Busy s' := by
  obtain ⟨_, _, _, _, _, _, _, _, _, _, f11⟩ := writeInit_facts hg.count h
  obtain ⟨_, _, g2, _⟩ := f11 rfl
  intro r hr
  rw [g2] at hr
  obtain ⟨q, hq, rfl⟩ := List.mem_map.1 hr
  exact started_noinit q

theorem good_pushes {m : Mode} {B : Nat} {s : St} (hg : Good m B s) (hb : s.status = .work ∨ Busy s) (ps : List Bytes) : Good m B (pushes s ps) := by
  obtain ⟨f1, f2, f3, f4, f5, f6, f7, f8⟩ := pushes_facts ps s
  refine ⟨by rw [f2]; exact hg.nodup, ?_, ?_, ?_, hg.zero, fun hm => f7 B hg.base (hg.near hm), by rw [f3]; exact hg.gone, by rw [f2]; exact hg.halt,
    by rw [f2, f4]; exact hg.born, ?_, by rw [f2, f5]; exact hg.count⟩
  · rw [f2, f1]
    intro r hr k hk
    have := hg.bound r hr k hk
    rw [List.length_append]; omega
  · rw [f1, f3]
    have := hg.room
    rw [List.length_append]; omega
  · rw [f1]
    have := hg.base
    rw [List.length_append]; omega
  · rw [f2]
    intro hm r hr hi
    rcases hb with h | h
    · rcases hg.idle hm r hr hi with h1 | h1
      · exact Or.inl h1
      · rw [h] at h1; cases h1.2.1
    · exact absurd hi (h r hr)

theorem push_eq (s : St) (p : Bytes) : push s p = pushes s [p] := rfl

theorem good_remove {m : Mode} {B : Nat} {s : St} (hg : Good m B s) (cid : Nat) : Good m B (remove s cid) := by
  unfold remove
  by_cases h : (s.readers.any fun r => decide (r.cid = cid)) = true
  · rw [if_pos h]
    have hm : ∀ r ∈ s.readers.filter (fun r => !decide (r.cid = cid)), r ∈ s.readers := fun r hr => (List.mem_filter.1 hr).1
    refine ⟨?_, fun r hr => hg.bound r (hm r hr), hg.room, hg.base, hg.zero, hg.near, hg.gone, fun r hr => hg.halt r (hm r hr),
      fun h r hr => hg.born h r (hm r hr), fun h r hr => hg.idle h r (hm r hr), ?_⟩
    · exact List.Sublist.nodup (List.Sublist.map _ List.filter_sublist) hg.nodup
    · dsimp only
      have hc := hg.count
      have hnd := hg.nodup
      have key : ∀ rs : List Reader, (rs.map (·.cid)).Nodup →
          rs.countP (fun r => decide (r.status = .work)) ≤ (rs.filter (fun r => !decide (r.cid = cid))).countP (fun r => decide (r.status = .work)) + 1 := by
        intro rs
        induction rs with
        | nil => intro _; simp
        | cons q rs ih =>
          intro hn
          rw [List.map_cons, List.nodup_cons] at hn
          by_cases hq : q.cid = cid
          · have : rs.filter (fun r => !decide (r.cid = cid)) = rs := by
              rw [List.filter_eq_self]
              intro r hr
              have : r.cid ≠ cid := fun h => hn.1 (by rw [hq, ← h]; exact List.mem_map_of_mem hr)
              simp [this]
            rw [List.filter_cons_of_neg (by simp [hq]), this, List.countP_cons]
            split <;> omega
          · rw [List.filter_cons_of_pos (by simp [hq]), List.countP_cons, List.countP_cons]
            have := ih hn.2
            omega
      have := key s.readers hnd
      omega
  · rw [if_neg h]
    exact ⟨hg.nodup, hg.bound, hg.room, hg.base, hg.zero, hg.near, hg.gone, hg.halt, hg.born, hg.idle, hg.count⟩

theorem good_frame {m : Mode} {B : Nat} {s s' : St} (hg : Good m B s) (h1 : s'.out = s.out) (h2 : s'.near = s.near) (h3 : s'.gone = s.gone) (h4 : s'.readers = s.readers)
    (h5 : s'.status = s.status) (h6 : s'.cur = s.cur) : Good m B s' := by
  refine ⟨?_, ?_, by rw [h1, h3]; exact hg.room, by rw [h1]; exact hg.base, hg.zero, ?_, ?_, ?_, by rw [h4, h5]; exact hg.born, ?_, ?_⟩
  · rw [h4]; exact hg.nodup
  · rw [h4, h1]; exact hg.bound
  · rw [h1, h2]; exact hg.near
  · rw [h3]; exact hg.gone
  · rw [h4]; exact hg.halt
  · rw [h4, h5, h1]; exact hg.idle
  · rw [h4, h6]; exact hg.count

theorem good_init (m : Mode) (today : Nat) : Good m 0 (init today) := by
  refine ⟨by simp [init], by simp [init], Nat.le_refl _, Nat.zero_le _, fun _ => rfl, fun _ => ⟨by simp [init], by simp [init]⟩, fun _ => rfl, by simp [init],
    by simp [init], by simp [init], by simp [init]⟩

theorem find_mem {rs : List Reader} {cid : Nat} {r : Reader} (h : rs.find? (fun r => decide (r.cid = cid)) = some r) : r ∈ rs ∧ r.cid = cid :=
  ⟨List.mem_of_find?_eq_some h, by simpa using List.find?_some (p := fun r : Reader => decide (r.cid = cid)) h⟩

theorem find_of_mem {rs : List Reader} (hnd : (rs.map (·.cid)).Nodup) {r : Reader} (hr : r ∈ rs) :
    rs.find? (fun q => decide (q.cid = r.cid)) = some r := by
  induction rs with
  | nil => simp at hr
  | cons q rs ih =>
    rw [List.map_cons, List.nodup_cons] at hnd
    rcases List.mem_cons.1 hr with rfl | hr
    · exact List.find?_cons_of_pos (by simp)
    · have : q.cid ≠ r.cid := fun h => hnd.1 (by rw [h]; exact List.mem_map_of_mem hr)
      rw [List.find?_cons_of_neg (by simp [this])]
      exact ih hnd.2 hr

theorem mem_unique {rs : List Reader} (hnd : (rs.map (·.cid)).Nodup) {r q : Reader} (hr : r ∈ rs) (hq : q ∈ rs) (h : r.cid = q.cid) : r = q := by
  have h1 := find_of_mem hnd hr
  rw [h, find_of_mem hnd hq] at h1
  exact (Option.some.inj h1).symm

theorem readOne_facts {s : St} {r r' : Reader} {ns : List Note} (hg : s.gone ≤ s.out.length) (h : readOne s r = some (r', ns)) :
    r'.cid = r.cid ∧ r'.serial = r.serial ∧ r'.status = r.status ∧ r'.whole = r.whole ∧ r'.zip = r.zip ∧ r'.head = r.head ∧
    (r.cursor = .closed → r' = r ∧ ns = []) ∧ (∀ k, r'.cursor = .pos k → r'.cursor = r.cursor ∨ k ≤ s.out.length) ∧
    (s.out = [] → ∀ n ∈ ns, ∃ d, n = .wait d) := by
  unfold readOne at h
  cases hc : r.cursor with
  | closed =>
    rw [hc] at h
    simp only [Option.some.injEq, Prod.mk.injEq] at h
    obtain ⟨rfl, rfl⟩ := h
    exact ⟨rfl, rfl, rfl, rfl, rfl, rfl, fun _ => ⟨rfl, rfl⟩, fun k hk => Or.inl hc, fun _ n hn => by simp at hn⟩
  | lost => rw [hc] at h; cases h
  | fresh =>
    rw [hc] at h
    simp only [Option.some.injEq, Prod.mk.injEq] at h
    obtain ⟨rfl, rfl⟩ := h
    refine ⟨rfl, rfl, rfl, rfl, rfl, rfl, fun h => (by cases h), fun k hk => Or.inr ?_, fun _ n hn => by simp at hn⟩
    simp only [Cursor.pos.injEq] at hk
    omega
  | pos k =>
    rw [hc] at h
    dsimp only at h
    cases ho : s.out[k]? with
    | none =>
      rw [ho] at h
      dsimp only at h
      split at h
      · simp only [Option.some.injEq, Prod.mk.injEq] at h
        obtain ⟨rfl, rfl⟩ := h
        exact ⟨rfl, rfl, rfl, rfl, rfl, rfl, fun h => (by cases h), fun k hk => Or.inl hc, fun _ n hn => by simp at hn⟩
      · simp only [Option.some.injEq, Prod.mk.injEq] at h
        obtain ⟨rfl, rfl⟩ := h
        exact ⟨rfl, rfl, rfl, rfl, rfl, rfl, fun h => (by cases h), fun k hk => Or.inl rfl, fun _ n hn => ⟨_, List.mem_singleton.1 hn⟩⟩
    | some p =>
      rw [ho] at h
      simp only [Option.some.injEq, Prod.mk.injEq] at h
      obtain ⟨rfl, rfl⟩ := h
      refine ⟨rfl, rfl, rfl, rfl, rfl, rfl, fun h => (by cases h), fun k' hk => Or.inr ?_, fun h0 => ?_⟩
      · simp only [Cursor.pos.injEq] at hk
        have := (List.getElem?_eq_some_iff.1 ho).1
        omega
      · rw [h0] at ho; simp at ho

theorem good_read {m : Mode} {B : Nat} {s s' : St} {c : Nat} {o : List Out} (hg : Good m B s) (h : read s c = some (s', o)) : Good m B s' := by
  unfold read at h
  cases hf : s.readers.find? (fun r => decide (r.cid = c)) with
  | none =>
    rw [hf] at h
    simp only [Option.some.injEq, Prod.mk.injEq] at h
    rw [← h.1]; exact hg
  | some r =>
    rw [hf] at h
    obtain ⟨hr, hc⟩ := find_mem hf
    simp only [Option.map_eq_some_iff, Prod.mk.injEq] at h
    obtain ⟨⟨r', ns⟩, hx, rfl, rfl⟩ := h
    obtain ⟨a1, a2, a3, a4, a5, a6, a7, a8, a9⟩ := readOne_facts hg.room hx
    have hmem : ∀ q ∈ s.readers.map (fun q => if q.cid = c then r' else q), q = r' ∨ q ∈ s.readers := by
      intro q hq
      obtain ⟨x, hx, rfl⟩ := List.mem_map.1 hq
      split
      · exact Or.inl rfl
      · exact Or.inr hx
    refine ⟨?_, ?_, hg.room, hg.base, hg.zero, hg.near, hg.gone, ?_, ?_, ?_, ?_⟩
    · dsimp only
      rw [List.map_map]
      have : (s.readers.map ((fun r : Reader => r.cid) ∘ fun q => if q.cid = c then r' else q)) = s.readers.map (·.cid) := by
        refine List.map_congr_left ?_
        intro q hq
        dsimp only [Function.comp]
        split
        · rename_i hqc; rw [a1, hc, hqc]
        · rfl
      rw [this]; exact hg.nodup
    · intro q hq k hk
      rcases hmem q hq with rfl | hq
      · rcases a8 k hk with h1 | h1
        · exact hg.bound r hr k (by rw [← h1]; exact hk)
        · exact h1
      · exact hg.bound q hq k hk
    · intro q hq hs
      rcases hmem q hq with rfl | hq
      · have := hg.halt r hr (by rw [← a3]; exact hs)
        rw [(a7 this).1]; exact this
      · exact hg.halt q hq hs
    · intro h0 q hq
      rcases hmem q hq with rfl | hq
      · have := hg.born h0 r hr
        rw [(a7 this).1]; exact this
      · exact hg.born h0 q hq
    · intro hm q hq hs
      rcases hmem q hq with rfl | hq
      · rcases hg.idle hm r hr (by rw [← a3]; exact hs) with h1 | h1
        · rw [(a7 h1).1]; exact Or.inl h1
        · exact Or.inr h1
      · exact hg.idle hm q hq hs
    · dsimp only
      have : (s.readers.map (fun q => if q.cid = c then r' else q)).countP (fun r => decide (r.status = .work)) =
          s.readers.countP (fun r => decide (r.status = .work)) := by
        rw [List.countP_map]
        refine List.countP_congr ?_
        intro q hq
        by_cases hqc : q.cid = c
        · simp [hqc, a3, mem_unique hg.nodup hr hq (by rw [hc, hqc])]
        · simp [hqc]
      rw [this]; exact hg.count

theorem stopped_facts (r : Reader) (h : r.status = .stop → r.cursor = .closed) :
    (stopped r).cid = r.cid ∧ (stopped r).status = .stop ∧ (stopped r).cursor = .closed := by
  unfold stopped
  split
  · rename_i hs; exact ⟨rfl, hs, h hs⟩
  · exact ⟨rfl, rfl, rfl⟩

theorem good_stopAll {m : Mode} {B : Nat} {s : St} (hn : (s.readers.map (·.cid)).Nodup) (hh : ∀ r ∈ s.readers, r.status = .stop → r.cursor = .closed)
    (hroom : s.gone ≤ s.out.length) (hbase : B ≤ s.out.length) (hzero : m ≠ .part → B = 0)
    (hnear : m ≠ .weak → Near B s.out s.near) (hgone : m = .all → s.gone = 0) : Good m B { s with readers := s.readers.map stopped, cur := 0 } := by
  have hm : ∀ r ∈ s.readers.map stopped, r.status = .stop ∧ r.cursor = .closed := by
    intro r hr
    obtain ⟨q, hq, rfl⟩ := List.mem_map.1 hr
    exact (stopped_facts q (hh q hq)).2
  refine ⟨?_, ?_, hroom, hbase, hzero, hnear, hgone, fun r hr _ => (hm r hr).2, fun _ r hr => (hm r hr).2, fun _ r hr _ => Or.inl (hm r hr).2,
    Nat.zero_le _⟩
  · dsimp only
    rw [List.map_map, show s.readers.map ((fun r : Reader => r.cid) ∘ stopped) = s.readers.map (·.cid) from
      List.map_congr_left fun q hq => (stopped_facts q (hh q hq)).1]
    exact hn
  · intro r hr k hk
    rw [(hm r hr).2] at hk; cases hk

theorem good_step {m : Mode} {B : Nat} {e : Env} (hk : m = .all → e.keep = true) {s s' : St} {v : Ev} {o : List Out} (hg : Good m B s)
    (h : step e s v = some (s', o)) (hst : m = .part → isStart v = false) : Good m B s' := by
  cases v with
  | keys b =>
    dsimp only [step] at h
    unfold setKeys at h
    cases b with
    | none => cases h
    | some b =>
      simp only [Option.some.injEq, Prod.mk.injEq] at h
      rw [← h.1]; exact good_frame hg rfl rfl rfl rfl rfl rfl
  | sdbs b =>
    dsimp only [step] at h
    unfold setSdbs at h
    split at h
    · cases h
    · cases b with
      | none => cases h
      | some b =>
        dsimp only at h
        cases hc : e.conv b with
        | none =>
          rw [hc] at h
          simp only [Option.some.injEq, Prod.mk.injEq] at h
          rw [← h.1]; exact good_frame hg rfl rfl rfl rfl rfl rfl
        | some t =>
          rw [hc] at h
          simp only [Option.some.injEq, Prod.mk.injEq] at h
          rw [← h.1]; exact good_frame hg rfl rfl rfl rfl rfl rfl
  | start d =>
    have hm0 : m ≠ .part := fun h => by cases hst h
    have hB := hg.zero hm0
    dsimp only [step] at h
    unfold start at h
    cases hkeep : e.keep with
    | true =>
      simp only [Option.some.injEq, Prod.mk.injEq, hkeep, if_true] at h
      obtain ⟨rfl, rfl⟩ := h
      refine ⟨?_, ?_, Nat.le_refl _, by rw [hB]; exact Nat.zero_le _, hg.zero, fun _ => ⟨by simp, by simp⟩, fun _ => rfl, ?_, fun h => (by cases h), ?_,
        Nat.zero_le _⟩
      · dsimp only
        rw [List.map_map, List.map_map]
        exact hg.nodup
      · intro r hr k hk
        dsimp only at hr
        rw [List.map_map] at hr
        obtain ⟨q, hq, rfl⟩ := List.mem_map.1 hr
        dsimp only [Function.comp, cleared] at hk
        split at hk
        · split at hk
          · cases hk; exact Nat.zero_le _
          · cases hk
        · rename_i hne
          exact absurd hk (hne k)
      · intro r hr hs
        dsimp only at hr
        obtain ⟨q, hq, rfl⟩ := List.mem_map.1 hr
        cases hs
      · intro hm r hr hs
        cases m with
        | all => exact Or.inr ⟨rfl, rfl, rfl⟩
        | part => exact absurd rfl hm0
        | weak => exact absurd rfl hm
    | false =>
      have hmw : m = .weak := by
        cases m with
        | all => rw [hk rfl] at hkeep; cases hkeep
        | part => exact absurd rfl hm0
        | weak => rfl
      subst hmw
      simp only [Option.some.injEq, Prod.mk.injEq, hkeep, Bool.false_eq_true, if_false] at h
      obtain ⟨rfl, rfl⟩ := h
      refine ⟨?_, ?_, hg.room, hg.base, hg.zero, fun h => absurd rfl h, fun h => (by cases h), ?_, fun h => (by cases h), fun h => absurd rfl h,
        Nat.zero_le _⟩
      · dsimp only
        rw [List.map_map]
        exact hg.nodup
      · intro r hr k hk
        dsimp only at hr
        obtain ⟨q, hq, rfl⟩ := List.mem_map.1 hr
        exact hg.bound q hq k hk
      · intro r hr hs
        dsimp only at hr
        obtain ⟨q, hq, rfl⟩ := List.mem_map.1 hr
        cases hs
  | stop l =>
    dsimp only [step] at h
    simp only [Option.some.injEq] at h
    unfold stop at h
    split at h
    · cases h; exact hg
    · dsimp only at h
      cases hd : s.dict with
      | none =>
        rw [hd] at h
        cases h
        exact good_stopAll (s := { s with inputs := [], dict := none }) hg.nodup hg.halt hg.room hg.base hg.zero hg.near hg.gone
      | some d =>
        rw [hd] at h
        cases h
        obtain ⟨f1, f2, f3, f4, f5, f6, f7, f8⟩ := pushes_facts l { s with inputs := [], dict := some d }
        refine good_stopAll (s := { pushes { s with inputs := [], dict := some d } l with dict := none }) ?_ ?_ ?_ ?_ hg.zero
          (fun hm => f7 B hg.base (hg.near hm)) (fun hm => f3.trans (hg.gone hm))
        · show ((pushes _ l).readers.map _).Nodup
          rw [f2]; exact hg.nodup
        · show ∀ r ∈ (pushes _ l).readers, _
          rw [f2]; exact hg.halt
        · show (pushes _ l).gone ≤ (pushes _ l).out.length
          rw [f1, f3, List.length_append]
          exact Nat.le_add_right_of_le hg.room
        · show B ≤ (pushes _ l).out.length
          rw [f1, List.length_append]
          exact Nat.le_add_right_of_le hg.base
  | pub k t d =>
    dsimp only [step] at h
    unfold pub at h
    cases hw : writeInit e s with
    | none => rw [hw] at h; cases h
    | some x =>
      obtain ⟨s1, b, o1⟩ := x
      rw [hw] at h
      have hg1 := good_writeInit hg hw
      cases b with
      | false => cases h; exact hg1
      | true =>
        simp only [Option.map_eq_some_iff, Prod.mk.injEq] at h
        obtain ⟨s2, h2, rfl, _⟩ := h
        unfold writeBytes at h2
        split at h2
        · cases h2; exact hg1
        · split at h2
          · cases h2; exact good_frame hg1 rfl rfl rfl rfl rfl rfl
          · cases h2; exact good_frame hg1 rfl rfl rfl rfl rfl rfl
          · cases h2
  | zpub p =>
    dsimp only [step] at h
    unfold zpub at h
    cases hw : writeInit e s with
    | none => rw [hw] at h; cases h
    | some x =>
      obtain ⟨s1, b, o1⟩ := x
      rw [hw] at h
      have hg1 := good_writeInit hg hw
      cases b with
      | false => cases h; exact hg1
      | true =>
        cases h
        rw [push_eq]
        exact good_pushes hg1 (Or.inr (busy_writeInit hg hw)) [p]
  | pack ps =>
    dsimp only [step] at h
    simp only [Option.some.injEq] at h
    unfold pack at h
    split at h
    · rename_i d hst2 _
      cases h
      exact good_frame (good_pushes hg (Or.inl hst2) ps) rfl rfl rfl rfl rfl rfl
    · cases h
      exact good_frame hg rfl rfl rfl rfl rfl rfl
  | sub a =>
    dsimp only [step] at h
    simp only [Option.some.injEq] at h
    have hg0 : Good m B { s with date := max s.date a.today } := good_frame hg rfl rfl rfl rfl rfl rfl
    unfold sub at h
    dsimp only at h
    split at h
    · cases h; exact hg0
    · rename_i k t _
      split at h
      · cases h
        have hg1 : Good m B (if s.ago.contains a.cid = true then remove { s with date := max s.date a.today } a.cid else { s with date := max s.date a.today }) := by
          split
          · exact good_remove hg0 _
          · exact hg0
        split
        · exact good_frame hg1 rfl rfl rfl rfl rfl rfl
        · exact hg1
      · split at h
        · cases h; exact hg0
        · rename_i hany
          cases h
          refine ⟨?_, ?_, hg.room, hg.base, hg.zero, hg.near, hg.gone, ?_, ?_, ?_, ?_⟩
          · dsimp only
            rw [List.map_append, List.nodup_append]
            refine ⟨hg.nodup, by simp, ?_⟩
            intro x hx y hy
            obtain ⟨q, hq, rfl⟩ := List.mem_map.1 hx
            rw [List.map_singleton, List.mem_singleton] at hy
            subst hy
            intro heq
            exact hany (List.any_eq_true.2 ⟨q, hq, decide_eq_true heq⟩)
          · intro r hr j hj
            rcases List.mem_append.1 hr with h1 | h1
            · exact hg.bound r h1 j hj
            · rw [List.mem_singleton] at h1; subst h1; cases hj
          · intro r hr hs
            rcases List.mem_append.1 hr with h1 | h1
            · exact hg.halt r h1 hs
            · rw [List.mem_singleton] at h1; subst h1; cases hs
          · intro h0 r hr
            rcases List.mem_append.1 hr with h1 | h1
            · exact hg.born h0 r h1
            · rw [List.mem_singleton] at h1; subst h1; rfl
          · intro hm r hr hs
            rcases List.mem_append.1 hr with h1 | h1
            · exact hg.idle hm r h1 hs
            · rw [List.mem_singleton] at h1; subst h1; exact Or.inl rfl
          · dsimp only
            rw [List.countP_append]
            have := hg.count
            omega
  | unsub c => cases h; exact good_remove hg c
  | read c => exact good_read hg h
  | shed =>
    cases h
    unfold shed
    split
    · rename_i hc
      simp only [Bool.and_eq_true, Bool.not_eq_true', decide_eq_true_eq] at hc
      refine ⟨hg.nodup, hg.bound, ?_, hg.base, hg.zero, hg.near, ?_, hg.halt, hg.born, hg.idle, hg.count⟩
      · show s.gone + 1 ≤ s.out.length
        omega
      · intro hm
        rw [hk hm] at hc
        cases hc.1.1
    · exact hg

end Sis.Snodb
