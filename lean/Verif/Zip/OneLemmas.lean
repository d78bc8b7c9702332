import Verif.Zip.StepTheorems
/-
Stepwise compression and decompression: one record at a time, and block by block.
-/
namespace Sis.Zip
open Sis Sis.BitS

/-- A decompressor between two blocks. -/
structure Dec (dbs : List Dyn.Db) (kd : Nat) (d : Z) : Prop where
  tabs : Tabs dbs kd d
  status : d.status = 11
  mem : d.mem.length = kd * total dbs
  unz : d.unz.length = d.maxdb

/-- Blocks handed to a decompressor one after the other, and the records of each. -/
inductive Feeds : Z → List Bytes → List (List Rec) → Z → Prop
  | nil {d : Z} : Feeds d [] [] d
  | cons {d d1 d2 : Z} {b : Bytes} {bs : List Bytes} {n : Int} {rs : List Rec} {rss : List (List Rec)} : unStep d b = some (n, rs, d1) → Feeds d1 bs rss d2 →
      Feeds d (b :: bs) (rs :: rss) d2

theorem Feeds.append {d d1 d2 : Z} {as bs : List Bytes} {rs ss : List (List Rec)} (h : Feeds d as rs d1) (g : Feeds d1 bs ss d2) : Feeds d (as ++ bs) (rs ++ ss) d2 := by
  induction h with
  | nil => exact g
  | cons h1 _ ih => exact .cons h1 (ih g)

/-- Both sides, with no more records pending than bags. -/
def At (dbs xs : List Dyn.Db) (kd : Nat) (z d : Z) (p : Last) (dec : List Rec) : Prop :=
  ∃ mem unz, Sim dbs xs kd 16384 z d p dec mem unz ∧ dec.length ≤ z.bags

theorem Sim.bags {dbs xs : List Dyn.Db} {kd zs : Nat} {z d : Z} {p : Last} {dec : List Rec} {mem unz : Bytes} (h : Sim dbs xs kd zs z d p dec mem unz) : z.bags < 8 * zs := by
  have := h.big
  have hz := h.zsize
  cases h.pend with
  | none e1 e2 e3 e4 => omega
  | some e1 e2 e3 e4 e5 e6 e7 e8 e9 e10 =>
    have := e8.1
    rw [List.length_append, natBits_length] at this
    omega

theorem Sim.idle {dbs xs : List Dyn.Db} {kd zs : Nat} {z d : Z} {p : Last} {dec : List Rec} {mem unz : Bytes} (h : Sim dbs xs kd zs z d p dec mem unz) (h0 : z.bags = 0) :
    dec = [] ∧ Dec (dbs ++ xs) kd d := by
  obtain ⟨T, hst, hzs, hmax, hbig, hbuf, hsmall, hkeys, hw, hpend, hdt, hds, hkn, hul⟩ := h
  cases hpend with
  | none e1 e2 e3 e4 => exact ⟨rfl, hdt, hds, hkn.1, hul⟩
  | some e1 => omega

theorem Sim.size0 {dbs xs : List Dyn.Db} {kd zs : Nat} {z d : Z} {p : Last} {dec : List Rec} {mem unz : Bytes} (h : Sim dbs xs kd zs z d p dec mem unz) (h0 : ¬ getSize z > 0) :
    z.bags = 0 := by
  cases h.pend with
  | none e1 e2 e3 e4 => exact e1
  | some e1 e2 e3 e4 e5 e6 => omega

/-- The compressor is stopped. -/
theorem at_stop {dbs xs : List Dyn.Db} {kd : Nat} {z z' d : Z} {p : Last} {dec : List Rec} {bs : List Bytes} (h : At dbs xs kd z d p dec) (hs : stop z = some (bs, z')) :
    ∃ outs d', Feeds d bs outs d' ∧ Dec (dbs ++ xs) kd d' ∧ outs.flatten = dec ∧ ∀ o ∈ outs, o.length < 131072 := by
  obtain ⟨mem, unz, h, hl⟩ := h
  unfold stop at hs
  rw [if_neg (by rw [h.status]; decide)] at hs
  dsimp only at hs
  by_cases hpos : getSize z > 0
  · rw [if_pos hpos] at hs
    simp only [Option.map_map, Option.map_eq_some_iff] at hs
    obtain ⟨blk, hblk, hs⟩ := hs
    cases hs
    obtain ⟨n, d', g1, -, g2⟩ := flush h hpos hblk
    refine ⟨[dec], d', .cons g1 .nil, ((g2 0 (.inl rfl)).idle rfl).2, by simp, ?_⟩
    intro o ho
    rw [List.mem_singleton.1 ho]
    have := h.bags
    omega
  · rw [if_neg hpos] at hs
    cases hs
    obtain ⟨g1, g2⟩ := h.idle (h.size0 hpos)
    exact ⟨[], d, .nil, g2, by simp [g1], by simp⟩

/-- The compressor begins anew. -/
theorem at_restart {dbs xs : List Dyn.Db} {kd : Nat} {z z' d : Z} {p : Last} {dec : List Rec} {bs : List Bytes} (h : At dbs xs kd z d p dec) (hs : restart z true = some (bs, z')) :
    ∃ outs d', Feeds d bs outs d' ∧ At dbs xs kd z' d' (fun _ _ => none) [] ∧ outs.flatten = dec ∧ (∀ o ∈ outs, o.length < 131072) ∧ z'.keys = z.keys := by
  obtain ⟨mem, unz, h, hl⟩ := h
  unfold restart at hs
  rw [if_neg (by rw [h.status]; decide)] at hs
  dsimp only at hs
  have key : ∀ z1 d1 mem1 unz1, Sim dbs xs kd 16384 z1 d1 p [] mem1 unz1 → z1.bags = 0 →
      At dbs xs kd { z1 with init := 1, mem := List.replicate (z1.keys * z1.sum) 0 } d1 (fun _ _ => none) [] := by
    intro z1 d1 mem1 unz1 hs h0
    refine ⟨mem1, unz1, ?_, Nat.zero_le _⟩
    obtain ⟨⟨ke, T⟩, hst, hzs, hmax, hbig, hbuf, hsmall, hkeys, hw, hpend, hdt, hds, hkn, hul⟩ := hs
    refine ⟨⟨ke, T.same rfl rfl rfl rfl⟩, hst, hzs, hmax, hbig, hbuf, hsmall, hkeys, ?_, ?_, hdt, hds, ⟨hkn.1, by simp⟩, hul⟩
    · dsimp only
      rw [T.total]
      exact wrote_zeros dbs _
    · cases hpend with
      | none e1 e2 e3 e4 => exact .none e1 e2 e3 (.inr rfl)
      | some e1 => omega
  by_cases hpos : getSize z > 0
  · rw [if_pos hpos] at hs
    simp only [Option.map_map, Option.map_eq_some_iff] at hs
    obtain ⟨blk, hblk, hs⟩ := hs
    obtain ⟨n, d', g1, -, g2⟩ := flush h hpos hblk
    simp only [Function.comp_apply, Prod.mk.injEq, if_true] at hs
    obtain ⟨rfl, rfl⟩ := hs
    refine ⟨[dec], d', .cons g1 .nil, key { next z with init := 0 } d' mem unz (g2 0 (.inl rfl)) rfl, by simp, ?_, rfl⟩
    intro o ho
    rw [List.mem_singleton.1 ho]
    have := h.bags
    omega
  · rw [if_neg hpos] at hs
    simp only [Option.map_some, Option.some.injEq, Prod.mk.injEq, if_true] at hs
    obtain ⟨rfl, rfl⟩ := hs
    have h0 := h.size0 hpos
    obtain ⟨g1, g2⟩ := h.idle h0
    subst g1
    exact ⟨[], d, .nil, key z d mem unz h h0, by simp, by simp, rfl⟩

theorem at_add {dbs xs : List Dyn.Db} {kd : Nat} {z z' d : Z} {p : Last} {dec : List Rec} (h : At dbs xs kd z d p dec) {r : Int} (ha : addKey z 1 = some (r, z')) :
    At dbs xs kd z' d p dec ∧ z'.keys = z.keys + 1 := by
  obtain ⟨mem, unz, h, hl⟩ := h
  refine ⟨⟨mem, unz, sim_add h ha, ?_⟩, ?_⟩
  · unfold addKey at ha
    split at ha
    · cases ha
    · rw [if_pos h.status] at ha
      cases ha
      exact hl
  · unfold addKey at ha
    split at ha
    · cases ha
    · rw [if_pos h.status] at ha
      cases ha
      rfl

/-- One record. -/
theorem at_step {dbs xs : List Dyn.Db} (hpl : ∀ db ∈ dbs, Plain db) {kd : Nat} {z z' d : Z} {p : Last} {dec : List Rec} (h : At dbs xs kd z d p dec)
    {k s : Nat} {db : Dyn.Db} (hdb : dbs[s]? = some db) (hk : k < z.keys) (hkd : k < kd) {r : Bytes} (hr : r.length = db.size) (h1 : db.size + 264 ≤ 16384)
    (h2 : bitsOf db ≤ 8 * db.size + 1958) (hfit : Fits dbs p k s [r]) {n : Int} {bs : List Bytes} (hs : step z k s r = some (n, bs, z')) :
    ∃ outs d' dec' x, Feeds d bs outs d' ∧ At dbs xs kd z' d' (p.after k s [r]) dec' ∧ outs.flatten ++ dec' = dec ++ [(k, s, x)] ∧ (∀ o ∈ outs, o.length < 131072) ∧
      z'.keys = z.keys ∧ x.length = db.size ∧ SameRec db x r := by
  obtain ⟨mem, unz, h, hl⟩ := h
  have hp := hpl db (List.mem_of_getElem? hdb)
  have hsz1 := (made_size hp.1).1
  have hpc : pieces db.size r = [r] := by
    unfold pieces
    rw [hr, Nat.div_self hsz1]
    simp [← hr]
  have hrec : recsOf dbs s r = [r] := by unfold recsOf; rw [hdb]; exact hpc
  have hdiv : r.length / db.size = 1 := by rw [hr, Nat.div_self hsz1]
  obtain ⟨n', bs', z3, g1, g2⟩ := sim_defined hpl h (k := k) (s := s) (src := r) (by omega) (by
      rw [show ((k : Int).toNat) = k from rfl, show ((s : Int).toNat) = s from rfl, hrec]; exact hfit) (by
    intro db' hdb'
    rw [show ((s : Int).toNat) = s from rfl, hdb] at hdb'
    cases hdb'
    rw [hdiv, hr]
    omega)
  rw [hs] at g1
  cases g1
  obtain ⟨ke, T⟩ := h.tabs
  have ht := T.tab _ db hdb
  have hzs := h.zsize
  unfold step at hs
  rw [if_neg (by rw [h.status]; decide), if_neg (by omega), show ((s : Int).toNat) = s from rfl, ht] at hs
  dsimp only at hs
  rw [if_neg (by omega)] at hs
  unfold curMem at hs
  rw [show ((k : Int).toNat) = k from rfl, if_pos hk] at hs
  dsimp only at hs
  rw [hr, Nat.mod_self, if_neg (by omega), Nat.div_self hsz1, if_neg (by omega), if_neg (by rw [hzs]; omega)] at hs
  simp only [Option.bind_eq_some_iff, Option.map_eq_some_iff] at hs
  obtain ⟨⟨bs1, z1⟩, h3, z2, h4, h5⟩ := hs
  dsimp only at h4 h5
  cases h5
  have hb1 : z'.bags = z1.bags + 1 := by
    unfold bag at h4
    simp only [Option.bind_eq_some_iff, Option.map_eq_some_iff] at h4
    obtain ⟨_, _, _, _, ⟨_, _⟩, _, ⟨_, _⟩, _, rfl⟩ := h4
    rfl
  have fin : ∀ d1 dec1 mem1 unz1 outs, Sim dbs xs kd 16384 z1 d1 p dec1 mem1 unz1 → Feeds d bs outs d1 → outs.flatten ++ dec1 = dec → (∀ o ∈ outs, o.length < 131072) → dec1.length ≤ z1.bags → z1.keys = z.keys → z1.sum = z.sum →
      ∃ outs d' dec' x, Feeds d bs outs d' ∧ At dbs xs kd z' d' (p.after k s [r]) dec' ∧ outs.flatten ++ dec' = dec ++ [(k, s, x)] ∧ (∀ o ∈ outs, o.length < 131072) ∧
      z'.keys = z.keys ∧ x.length = db.size ∧ SameRec db x r := by
    intro d1 dec1 mem1 unz1 outs hs1 hf1 ho hol hlen hkeys hsum
    obtain ⟨g0, dec2, mem2, unz2, q1, q2⟩ := sim_bag hpl hs1 hdb (by rw [hkeys]; exact hk) hkd (src := r) (rs := [r]) (by simp) (by
      rw [← hpc]; exact fun i r hi => pieces_elem hi) hfit (by rw [hsum]; exact h4) g2
    obtain ⟨y1, y2⟩ := q2
    obtain ⟨x, hx, hx'⟩ := y2 0 k s r (by simp)
    have hd2 : dec2 = [(k, s, x)] := by
      simp only [List.map_cons, List.map_nil, List.length_cons, List.length_nil] at y1
      obtain ⟨y, rfl⟩ := List.length_eq_one_iff.1 y1
      simpa using hx
    subst hd2
    obtain ⟨w1, w2⟩ := hx' db hdb
    refine ⟨outs, d1, dec1 ++ [(k, s, x)], x, hf1, ⟨mem2, unz2, q1, ?_⟩, by rw [← ho, List.append_assoc], hol, by rw [g0, hkeys], w1, w2⟩
    rw [List.length_append, List.length_singleton]
    omega
  split at h3
  · simp only [Option.map_eq_some_iff] at h3
    obtain ⟨blk, hblk, h3⟩ := h3
    have hpos : getSize z > 0 := by rw [hzs] at *; omega
    obtain ⟨m, d', u1, -, u2⟩ := flush h hpos hblk
    cases h3
    refine fin d' [] mem unz [dec] (u2 0 (.inl rfl)) (.cons u1 .nil) (by simp) ?_ (Nat.zero_le _) rfl rfl
    intro o ho
    rw [List.mem_singleton.1 ho]
    have := h.bags
    omega
  · cases h3
    exact fin d dec mem unz [] h .nil (by simp) (by simp) hl rfl rfl

/-- The compressor is started. -/
theorem at_start {dbs xs : List Dyn.Db} {ke kd : Nat} {z0 z1 d : Z} (hz : Ready dbs ke z0) (h : start z0 16384 = some (0, z1)) (hd : Dec (dbs ++ xs) kd d) :
    At dbs xs kd z1 d (fun _ _ => none) [] ∧ z1.keys = ke := by
  refine ⟨⟨d.mem, d.unz, ?_, Nat.zero_le _⟩, ?_⟩
  · exact sim_start1 hz h hd.tabs hd.status hd.mem hd.unz
  · unfold start at h
    split at h
    · cases h
    generalize (if (16384 : Int) < 16384 then 16384 else Int.toNat 16384) = zs at h
    dsimp only at h
    split at h
    · cases h
    · cases h
      exact hz.facts.1.keys

end Sis.Zip
