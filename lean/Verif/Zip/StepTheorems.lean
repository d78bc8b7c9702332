import Verif.Zip.RunLemmas
import Verif.Zip.ZipTheorems
/-
C09: stepwise compression and decompression agree.
-/
namespace Sis.Zip
open Sis Sis.BitS

/-- C09: after any history of bags, ends of blocks and new keys, a reader that was given the same tables and enough keys gets, from the
blocks in the order in which they were handed on, the records of every bag that was accepted: same key, same table, same order, the
same number or text in each element of each field.  Missing: the first bag of a key and a table has at most one record, no text becomes
empty, no number changes by 2^63, and no bag takes more than the size given to start; see the violations below. -/
theorem C09_partial {dbs : List Dyn.Db} (hpl : ∀ db ∈ dbs, Plain db) {ke kd : Nat} {z0 z1 z2 z3 d0 d1 : Z} {m : Int} {fresh : Bytes} {evs : List Ev} {last : List Bytes}
    (hz : Ready dbs ke z0) (h1 : start z0 m = some (0, z1)) (h2 : Run z1 evs z2) (h3 : stop z2 = some (last, z3)) (hd : Ready dbs kd d0) (hu : unStart d0 fresh = some (0, d1))
    (hk : ∀ e ∈ evs, ∀ k s src, e.op = .step k s src → 0 < e.ret → k < kd) (hsize : ∀ e ∈ evs, (e.size : Int) ≤ max 16384 m) (hf : Flow dbs (fun _ _ => none) evs) :
    ∃ recs d2, feed d1 ((evs.map Ev.blocks).flatten ++ last) = some (recs, d2) ∧ SameRecs dbs recs (sent dbs evs) := by
  have h0 := sim_start (xs := []) hz h1 (by rw [List.append_nil]; exact hd) hu
  obtain ⟨out, d', p', dec', new, mem2, unz2, f1, f2, f3, f4, -⟩ := sim_run hpl h2 (more := []) h0 (by
    intro e he
    have := hsize e he
    split <;> omega) hk (by rw [List.append_nil]; exact hf)
  rw [List.nil_append] at f3
  unfold stop at h3
  rw [if_neg (by rw [f2.status]; decide)] at h3
  dsimp only at h3
  by_cases hpos : getSize z2 > 0
  · rw [if_pos hpos] at h3
    simp only [Option.map_map, Option.map_eq_some_iff] at h3
    obtain ⟨blk, hblk, h3⟩ := h3
    cases h3
    obtain ⟨n, d2, g1, -, -⟩ := flush f2 hpos hblk
    refine ⟨out ++ dec', d2, ?_, by rw [f3]; exact f4⟩
    rw [feed_append f1, feed_one g1]
    rfl
  · rw [if_neg hpos] at h3
    cases h3
    have hdec : dec' = [] := by
      cases f2.pend with
      | none => rfl
      | some e1 e2 e3 e4 e5 e6 => exact absurd e6 (by omega)
    rw [hdec, List.append_nil] at f3
    refine ⟨out, d', ?_, by rw [f3]; exact f4⟩
    rw [List.append_nil]
    exact f1

theorem keys_bound (evs : List Ev) : ∃ kd, 1 ≤ kd ∧ ∀ e ∈ evs, ∀ k s src, e.op = .step k s src → 0 < e.ret → k < (kd : Nat) := by
  induction evs with
  | nil => exact ⟨1, by omega, by simp⟩
  | cons e evs ih =>
    obtain ⟨kd, h1, h2⟩ := ih
    refine ⟨kd + (match e.op with | .step k _ _ => k.toNat + 1 | _ => 0), by omega, ?_⟩
    intro e' he k s src ho hn
    rcases List.mem_cons.1 he with rfl | he
    · rw [ho]
      dsimp only
      omega
    · have := h2 e' he k s src ho hn
      omega

theorem same_refl (db : Dyn.Db) (a : Bytes) : SameRec db a a := by
  intro name f e _ _
  unfold Alike
  split <;> rfl

theorem sim_defined {dbs xs : List Dyn.Db} (hpl : ∀ db ∈ dbs, Plain db) {kd zs : Nat} {z d : Z} {p : Last} {dec : List Rec} {mem' unz' : Bytes} (h : Sim dbs xs kd zs z d p dec mem' unz')
    {k s : Int} {src : Bytes} (hk : 0 ≤ k) (hf : Fits dbs p k.toNat s.toNat (recsOf dbs s.toNat src))
    (hsrc : ∀ db, dbs[s.toNat]? = some db → src.length + src.length / db.size * 8 + 256 < 2 ^ 31 ∧ src.length / db.size * bitsOf db ≤ 8 * src.length + 64 * (src.length / db.size) + 1894) :
    ∃ n bs z3, step z k s src = some (n, bs, z3) ∧ getSize z3 ≤ zs := by
  obtain ⟨hst, hmax, hsmall, hw, hbuf⟩ := And.intro h.status (And.intro h.max (And.intro h.small (And.intro h.wrote h.buf)))
  obtain ⟨ke, T⟩ := h.tabs
  have hzs := h.zsize
  obtain ⟨p1, p2, p3, p4⟩ : getSize z ≤ zs ∧ getSize z ≤ z.s.buf.length ∧ z.s.pos ≤ 8 * getSize z ∧ z.bags < 2 ^ 31 := by
    cases h.pend with
    | none e1 e2 e3 e4 =>
      have : getSize z = 0 := by unfold getSize; omega
      omega
    | some e1 e2 e3 e4 e5 e6 e7 e8 e9 e10 =>
      have := e8.1
      rw [List.length_append] at this
      omega
  unfold step
  rw [if_neg (by rw [hst]; decide)]
  split
  · exact ⟨_, _, _, rfl, p1⟩
  rename_i t ht
  split at ht
  · cases ht
  rename_i hs0
  rw [if_neg (by omega)]
  have hslt : s.toNat < dbs.length := by rw [← T.len]; exact (List.getElem?_eq_some_iff.1 ht).1
  obtain ⟨db, hdb⟩ : ∃ db, dbs[s.toNat]? = some db := ⟨_, List.getElem?_eq_getElem hslt⟩
  have htt := T.tab _ db hdb
  rw [ht] at htt
  cases htt
  have hp := hpl db (List.mem_of_getElem? hdb)
  obtain ⟨hs1, hs2⟩ := hsrc db hdb
  unfold curMem
  split
  · exact ⟨_, _, _, rfl, p1⟩
  rename_i b hb
  split at hb
  case isFalse => cases hb
  rename_i hkk
  have hb := (Option.some.inj hb).symm
  subst hb
  dsimp only
  split
  · exact ⟨_, _, _, rfl, p1⟩
  rw [if_neg (by omega)]
  split
  · exact ⟨_, _, _, rfl, p1⟩
  rename_i hnew
  have hrec : recsOf dbs s.toNat src = pieces db.size src := by unfold recsOf; rw [hdb]
  rw [hrec] at hf
  have hW := hw.2.1 k.toNat s.toNat db hkk hdb
  have fin : ∀ z1 : Z, z1.max = z.max → z1.bags < 2 ^ 31 → z1.s.buf = z.s.buf → z1.mem = z.mem → z1.s.pos + 8 * (src.length + src.length / db.size * 8 + 256) ≤ zs * 8 →
      ∃ z2, bag z1 (k.toNat * z.sum + off dbs s.toNat) k.toNat s.toNat (src.length / db.size) ⟨db, off dbs s.toNat, db.fields.length % 2 ^ 16⟩ src = some z2 ∧ getSize z2 ≤ zs := by
    intro z1 q1 q2 q3 q4 q5
    obtain ⟨x, hx⟩ : ∃ x, src.length / db.size * bitsOf db = x := ⟨_, rfl⟩
    have hroom : z1.s.pos + (pieces db.size src).length * bitsOf db + 154 ≤ z1.max := by
      rw [pieces_length, q1, hmax]
      rw [hx] at hs2 ⊢
      omega
    obtain ⟨z2, g1, g2, -⟩ := bag_defined (z := z1) (t := ⟨db, off dbs s.toNat, db.fields.length % 2 ^ 16⟩) hp (Nat.mod_eq_of_lt hp.2.1) (b := k.toNat * z.sum + off dbs s.toNat) (k := k.toNat) (sidx := s.toNat)
      (src := src) (rs := pieces db.size src) (a := (p k.toNat s.toNat).getD (List.replicate db.size 0))
      (by rw [q1, hmax, Nat.mul_mod_left]) (by omega) (by rw [q1, hmax, q3]; omega) (fun i r hi => pieces_elem hi)
      (by rw [q4, T.total]; exact hW.elem) hroom (by
        obtain ⟨r1, r2⟩ := hf db hdb
        cases hpp : p k.toNat s.toNat with
        | none =>
          refine ⟨none, ?_⟩
          obtain ⟨-, r3⟩ := r1 hpp
          generalize pieces db.size src = rs at r3
          cases rs with
          | nil => trivial
          | cons r rs => exact ⟨r3.2, rfl, r3.1⟩
        | some a =>
          refine ⟨some (a, 0), ?_⟩
          have r3 := r2 a hpp
          have hal : Dyn.elem a 0 db.size = some a := by
            have := hW.elem
            rw [hpp] at this
            have hl : a.length = db.size := (Dyn.elem_some this).2.2
            rw [elem_eq_some (by omega), ← hl]
            simp
          generalize pieces db.size src = rs at r3
          cases rs with
          | nil => trivial
          | cons r rs => exact ⟨r3.2, ⟨a, hal, same_refl db a⟩, r3.1⟩)
    rw [pieces_length] at g1
    refine ⟨z2, g1, ?_⟩
    rw [q1, hmax] at g2
    omega
  by_cases hfl : getSize z + (src.length + src.length / db.size * 8 + 256) > z.zsize
  · rw [if_pos hfl]
    unfold block
    rw [if_pos p2]
    obtain ⟨z2, g1, g2⟩ := fin { next z with init := 0 } (by unfold next; dsimp only; rw [hmax, hzs]) (by unfold next; dsimp only; omega) rfl rfl (by unfold next; dsimp only; omega)
    refine ⟨z2.bags, [z.s.buf.take (getSize z)], z2, ?_, g2⟩
    simp only [Option.map_some, Option.bind_some]
    unfold off at g1
    rw [g1]
    rfl
  · rw [if_neg hfl]
    obtain ⟨z2, g1, g2⟩ := fin z rfl p4 rfl rfl (by omega)
    refine ⟨z2.bags, [], z2, ?_, g2⟩
    simp only [Option.bind_some]
    unfold off at g1
    rw [g1]
    rfl

/-- C09: after such a history a bag that can follow is accepted or refused, and one that is accepted takes no more than the size given
to start, if the most its records can take is at most 1894 bits and 64 bits for each record more than their bytes, for example when
records have at most 9 numbers or one text. -/
theorem C09_defined_partial {dbs : List Dyn.Db} (hpl : ∀ db ∈ dbs, Plain db) {ke : Nat} {z0 z1 z2 : Z} {m : Int} {evs : List Ev}
    (hz : Ready dbs ke z0) (h1 : start z0 m = some (0, z1)) (h2 : Run z1 evs z2) (hsize : ∀ e ∈ evs, (e.size : Int) ≤ max 16384 m)
    {k s : Int} {src : Bytes} (hf : Flow dbs (fun _ _ => none) (evs ++ [⟨.step k s src, 1, [], 0⟩])) (hk : 0 ≤ k)
    (hsrc : ∀ db, dbs[s.toNat]? = some db → src.length + src.length / db.size * 8 + 256 < 2 ^ 31 ∧ src.length / db.size * bitsOf db ≤ 8 * src.length + 64 * (src.length / db.size) + 1894) :
    ∃ n bs z3, step z2 k s src = some (n, bs, z3) ∧ (getSize z3 : Int) ≤ max 16384 m := by
  obtain ⟨kd, hkd1, hkd⟩ := keys_bound evs
  obtain ⟨d1, q1, q2, q3, q4, q5, q6, q7⟩ : ∃ d1 : Z, d1.tabs = z0.tabs ∧ d1.sum = z0.sum ∧ d1.keys = kd ∧ d1.maxdb = z0.maxdb ∧ d1.status = 11 ∧
    d1.mem = List.replicate (kd * total dbs) 0 ∧ d1.unz = List.replicate z0.maxdb 0 :=
    ⟨{ z0 with keys := kd, status := 11, mem := List.replicate (kd * total dbs) 0, unz := List.replicate z0.maxdb 0 }, rfl, rfl, rfl, rfl, rfl, rfl, rfl⟩
  have T := hz.facts.1
  have h0 := sim_start1 (xs := []) hz h1 (d1 := d1) (kd := kd) (by rw [List.append_nil]; exact ⟨by rw [q1]; exact T.len, by rw [q1]; exact T.tab, by rw [q2]; exact T.sum, q3, hkd1, by rw [q4]; exact T.max⟩) q5
    (by rw [q6, List.length_replicate, List.append_nil]) (by rw [q7, List.length_replicate, q4])
  obtain ⟨out, d', p', dec', new, mem2, unz2, -, f2, -, -, f5⟩ := sim_run hpl h2 h0 (by
    intro e he
    have := hsize e he
    split <;> omega) hkd hf
  unfold Flow at f5
  rw [if_pos (by omega)] at f5
  obtain ⟨n, bs, z3, g1, g2⟩ := sim_defined hpl f2 hk f5.1 hsrc
  refine ⟨n, bs, z3, g1, ?_⟩
  split at g2 <;> omega

/-- C09: after such a history a block can be ended, and the compressor stopped. -/
theorem C09_ends {dbs : List Dyn.Db} (hpl : ∀ db ∈ dbs, Plain db) {ke : Nat} {z0 z1 z2 : Z} {m : Int} {evs : List Ev}
    (hz : Ready dbs ke z0) (h1 : start z0 m = some (0, z1)) (h2 : Run z1 evs z2) (hsize : ∀ e ∈ evs, (e.size : Int) ≤ max 16384 m) (hf : Flow dbs (fun _ _ => none) evs) :
    (∀ init, ∃ bs z3, restart z2 init = some (bs, z3) ∧ getSize z3 = 0) ∧ ∃ bs z3, stop z2 = some (bs, z3) := by
  obtain ⟨kd, hkd1, hkd⟩ := keys_bound evs
  obtain ⟨d1, q1, q2, q3, q4, q5, q6, q7⟩ : ∃ d1 : Z, d1.tabs = z0.tabs ∧ d1.sum = z0.sum ∧ d1.keys = kd ∧ d1.maxdb = z0.maxdb ∧ d1.status = 11 ∧
    d1.mem = List.replicate (kd * total dbs) 0 ∧ d1.unz = List.replicate z0.maxdb 0 :=
    ⟨{ z0 with keys := kd, status := 11, mem := List.replicate (kd * total dbs) 0, unz := List.replicate z0.maxdb 0 }, rfl, rfl, rfl, rfl, rfl, rfl, rfl⟩
  have T := hz.facts.1
  have h0 := sim_start1 (xs := []) hz h1 (d1 := d1) (kd := kd) (by rw [List.append_nil]; exact ⟨by rw [q1]; exact T.len, by rw [q1]; exact T.tab, by rw [q2]; exact T.sum, q3, hkd1, by rw [q4]; exact T.max⟩) q5
    (by rw [q6, List.length_replicate, List.append_nil]) (by rw [q7, List.length_replicate, q4])
  obtain ⟨out, d', p', dec', new, mem2, unz2, -, f2, -⟩ := sim_run hpl h2 (more := []) h0 (by
    intro e he
    have := hsize e he
    split <;> omega) hkd (by rw [List.append_nil]; exact hf)
  have p2 : getSize z2 ≤ z2.s.buf.length := by
    cases f2.pend with
    | none e1 e2 e3 e4 =>
      have : getSize z2 = 0 := by unfold getSize; omega
      omega
    | some e1 e2 e3 e4 => exact e4
  have hst := f2.status
  refine ⟨fun init => ?_, ?_⟩
  · unfold restart block
    rw [if_neg (by rw [hst]; decide)]
    dsimp only
    by_cases hpos : getSize z2 > 0
    · rw [if_pos hpos, if_pos p2]
      cases init
      · exact ⟨_, _, rfl, by simp [getSize, next]⟩
      · exact ⟨_, _, rfl, by simp [getSize, next]⟩
    · rw [if_neg hpos]
      have h0 : getSize z2 = 0 := by omega
      cases init
      · exact ⟨_, _, rfl, h0⟩
      · exact ⟨_, _, rfl, h0⟩
  · unfold stop block
    rw [if_neg (by rw [hst]; decide), if_pos p2]
    dsimp only
    split
    · exact ⟨_, _, rfl⟩
    · exact ⟨_, _, rfl⟩

/-! ### Cases of C09 -/

/-- A table of a number of 1 byte. -/
def byteTab : Dyn.Db := tableOf [⟨some [0x76], some .int, 1, 1, false, 0, false⟩]

/-- A table of 20000 numbers of 1 byte. -/
def hugeTab : Dyn.Db := tableOf [⟨some [0x76], some .int, 1, 20000, false, 0, false⟩]

theorem byteTab_plain : Plain byteTab := by
  refine ⟨.create (ds := [⟨some [0x76], some .int, 1, 1, false, 0, false⟩]) rfl (by decide), by decide, of_flds ?_⟩
  exact flds_one rfl (f := ⟨[0x76], .int, 1, 1, 0, 0, false, false⟩) rfl (.inl ⟨.inl rfl, .inl rfl⟩)

theorem hugeTab_plain : Plain hugeTab := by
  refine ⟨.create (ds := [⟨some [0x76], some .int, 1, 20000, false, 0, false⟩]) rfl (by decide), by decide, of_flds ?_⟩
  exact flds_one rfl (f := ⟨[0x76], .int, 1, 20000, 0, 0, false, false⟩) rfl (.inl ⟨.inl rfl, .inl rfl⟩)

/-- Any record of one number of 1 byte can follow any other. -/
theorem byteTab_opens (r : Bytes) : Opens byteTab r := by
  intro name f e hf he
  refine of_flds (P := fun f => (f.style = .char → text (Dyn.slot byteTab.size r 0 f e) ≠ []) ∧ (f.style ≠ .char → f.len = 8 → leVal (Dyn.slot byteTab.size r 0 f e) ≠ 2 ^ 63))
    (flds_one rfl (f := ⟨[0x76], .int, 1, 1, 0, 0, false, false⟩) rfl ⟨(by intro h; cases h), (by intro _ h; cases h)⟩) name f hf

theorem byteTab_linked : ∀ (rs : List Bytes) (a : Bytes), Linked byteTab a rs := by
  intro rs
  induction rs with
  | nil => intro a; trivial
  | cons r rs ih =>
    intro a
    refine ⟨?_, ih r⟩
    intro name f e hf he
    refine of_flds (P := fun f => (f.style = .char → text (Dyn.slot byteTab.size r 0 f e) = [] → text (Dyn.slot byteTab.size a 0 f e) = []) ∧
      (f.style ≠ .char → f.len = 8 → leVal (Dyn.slot byteTab.size r 0 f e) ≠ (leVal (Dyn.slot byteTab.size a 0 f e) + 2 ^ 63) % 2 ^ 64))
      (flds_one rfl (f := ⟨[0x76], .int, 1, 1, 0, 0, false, false⟩) rfl ⟨(by intro h; cases h), (by intro _ h; cases h)⟩) name f hf

theorem byteTab_fits {p : Last} {k s : Nat} {rs : List Bytes} (h : p k s = none → rs.length ≤ 1) : Fits [byteTab] p k s rs := by
  intro db hdb
  have : db = byteTab := List.mem_singleton.1 (List.mem_of_getElem? hdb)
  subst this
  refine ⟨fun h0 => ⟨h h0, ?_⟩, fun a _ => byteTab_linked rs a⟩
  cases rs with
  | nil => trivial
  | cons r rs => exact ⟨byteTab_opens r, byteTab_linked rs r⟩

/-- Operations one after the other. -/
def runOps (z : Z) : List Op → Option (List Ev × Z)
  | [] => some ([], z)
  | op :: ops => (does z op).bind fun (n, bs, z') => (runOps z' ops).map fun (evs, z'') => (⟨op, n, bs, getSize z'⟩ :: evs, z'')

theorem runOps_run : ∀ {ops : List Op} {z z' : Z} {evs : List Ev}, runOps z ops = some (evs, z') → Run z evs z' := by
  intro ops
  induction ops with
  | nil => intro z z' evs h; cases h; exact .nil
  | cons op ops ih =>
    intro z z' evs h
    simp only [runOps, Option.bind_eq_some_iff, Option.map_eq_some_iff] at h
    obtain ⟨⟨n, bs, z1⟩, h1, ⟨evs', z2⟩, h2, h3⟩ := h
    cases h3
    exact .cons h1 (ih h2)

/-- A compressor with keys. -/
def withKeys (n : Int) : Z := (setKey (oneTab byteTab) n).2

/-- Three blocks of two keys, later three; the sixth operation is refused. -/
def threeBlocks : List Ev :=
  [⟨.step 0 0 [5], 1, [], 5⟩, ⟨.step 1 0 [9], 2, [], 8⟩, ⟨.step 0 0 [7, 6], 3, [], 12⟩, ⟨.restart false, 0, [[128, 0, 20, 160, 64, 5, 76, 0, 2, 69, 132, 3]], 0⟩,
   ⟨.step 1 0 [1, 2, 3], 1, [], 7⟩, ⟨.step 5 0 [1], -3, [], 7⟩, ⟨.restart true, 0, [[65, 0, 61, 8, 80, 128, 1]], 0⟩, ⟨.step 0 0 [8], 1, [], 5⟩, ⟨.addKey 1, 3, [], 5⟩, ⟨.step 2 0 [4], 2, [], 8⟩]

example : ∃ z1 z2 z3 d1, Ready [byteTab] 2 (withKeys 2) ∧ start (withKeys 2) 0 = some (0, z1) ∧ Run z1 threeBlocks z2 ∧ stop z2 = some ([[128, 0, 21, 0, 128, 5, 32, 2]], z3) ∧
    Ready [byteTab] 3 (withKeys 3) ∧ unStart (withKeys 3) [0] = some (0, d1) ∧ (∀ e ∈ threeBlocks, ∀ k s src, e.op = .step k s src → 0 < e.ret → k < 3) ∧
    (∀ e ∈ threeBlocks, (e.size : Int) ≤ max 16384 0) ∧ Flow [byteTab] (fun _ _ => none) threeBlocks ∧
    sent [byteTab] threeBlocks = [(0, 0, [5]), (1, 0, [9]), (0, 0, [7]), (0, 0, [6]), (1, 0, [1]), (1, 0, [2]), (1, 0, [3]), (0, 0, [8]), (2, 0, [4])] := by
  have hr : ∀ n : Int, Ready [byteTab] (if n < 1 then 1 else n.toNat) (withKeys n) := fun n => .key n (oneTab_ready (by decide))
  have h1 : ((start (withKeys 2) 0).bind fun r => (runOps r.2 (threeBlocks.map Ev.op)).bind fun q => (stop q.2).map fun l => (r.1, q.1, l.1)) = some (0, threeBlocks, [[128, 0, 21, 0, 128, 5, 32, 2]]) := by
    decide +kernel
  simp only [Option.bind_eq_some_iff, Option.map_eq_some_iff] at h1
  obtain ⟨⟨n, z1⟩, h2, ⟨evs, z2⟩, h3, ⟨l, z3⟩, h4, h5⟩ := h1
  cases h5
  refine ⟨z1, z2, z3, _, hr 2, h2, runOps_run h3, h4, hr 3, rfl, ?_, by decide, ?_, by decide +kernel⟩
  · intro e he k s src ho hn
    simp only [threeBlocks, List.mem_cons, List.not_mem_nil, or_false] at he
    rcases he with rfl | rfl | rfl | rfl | rfl | rfl | rfl | rfl | rfl | rfl <;> cases ho <;> first | decide | cases hn
  · refine ⟨byteTab_fits (by decide), byteTab_fits (by decide), byteTab_fits (by decide), byteTab_fits (by decide), byteTab_fits (by decide), byteTab_fits (by decide), trivial⟩

/-- C09 fails: of two records in the first bag of a key the second is restored wrongly. -/
theorem C09_first_violated : ∃ z1 z2 z3 d1 d2 n, Ready [byteTab] 1 (withKeys 1) ∧ start (withKeys 1) 0 = some (0, z1) ∧ step z1 0 0 [5, 7] = some (1, [], z2) ∧ stop z2 = some ([[128, 0, 36, 168, 128, 1]], z3) ∧
    unStart (withKeys 1) [0] = some (0, d1) ∧ unStep d1 [128, 0, 36, 168, 128, 1] = some (n, [(0, 0, [5]), (0, 0, [2])], d2) := by
  have h1 : ((start (withKeys 1) 0).bind fun r => (step r.2 0 0 [5, 7]).bind fun q => (stop q.2.2).map fun l => (r.1, q.1, q.2.1, l.1)) = some (0, 1, [], [[128, 0, 36, 168, 128, 1]]) := by
    decide +kernel
  have h2 : ((unStart (withKeys 1) [0]).bind fun r => (unStep r.2 [128, 0, 36, 168, 128, 1]).map fun q => (r.1, q.2.1)) = some (0, [(0, 0, [5]), (0, 0, [2])]) := by decide +kernel
  simp only [Option.bind_eq_some_iff, Option.map_eq_some_iff] at h1 h2
  obtain ⟨⟨n, z1⟩, h3, ⟨m, bs, z2⟩, h4, ⟨l, z3⟩, h5, h6⟩ := h1
  obtain ⟨⟨n', d1⟩, h7, ⟨m', rs, d2⟩, h8, h9⟩ := h2
  cases h6
  cases h9
  exact ⟨z1, z2, z3, d1, d2, m', .key 1 (oneTab_ready (by decide)), h3, h4, h5, h7, h8⟩

/-- C09 fails: a negative key is not refused, and memory before that of the compressor is used. -/
theorem C09_key_violated {dbs : List Dyn.Db} {db : Dyn.Db} {ke : Nat} {z0 z1 : Z} {m : Int} (hz : Ready (db :: dbs) ke z0) (h1 : start z0 m = some (0, z1)) (k : Int) (hk : k < 0) (src : Bytes) :
    step z1 k 0 src = none := by
  have T := hz.facts.1
  unfold start at h1
  split at h1
  · cases h1
  dsimp only at h1
  generalize (if m < 16384 then 16384 else m.toNat) = zs at h1
  split at h1
  · cases h1
  · cases h1
    unfold step
    rw [if_neg (by dsimp only; decide), if_neg (by decide)]
    dsimp only
    rw [show (0 : Int).toNat = 0 from rfl, T.tab 0 db rfl]
    dsimp only
    rw [if_pos hk]

/-- C09 fails: a compressor that was used for a whole block before counts one bag too many, and the reader reads behind the block. -/
theorem C09_reuse_violated : ∃ z0 z1 z2 z3 blk0 blk d1, compress (withKeys 1) [3] (List.replicate 300 0) [] = some (1, blk0, z0) ∧ start z0 0 = some (0, z1) ∧ step z1 0 0 [5] = some (2, [], z2) ∧
    stop z2 = some ([blk], z3) ∧ unStart (withKeys 1) [0] = some (0, d1) ∧ unStep d1 blk = none := by
  have h1 : ((compress (withKeys 1) [3] (List.replicate 300 0) []).bind fun w => (start w.2.2 0).bind fun r => (step r.2 0 0 [5]).bind fun q => (stop q.2.2).map fun l => ((w.1, r.1, q.1), q.2.1, l.1)) =
      some ((1, 0, 2), [], [[128, 0, 20, 160, 2]]) := by
    decide +kernel
  have h2 : ((unStart (withKeys 1) [0]).map fun r => (r.1, (unStep r.2 [128, 0, 20, 160, 2]).isNone)) = some (0, true) := by decide +kernel
  simp only [Option.bind_eq_some_iff, Option.map_eq_some_iff] at h1 h2
  obtain ⟨⟨w, b0, z0⟩, h0, ⟨n, z1⟩, h3, ⟨m, bs, z2⟩, h4, ⟨l, z3⟩, h5, h6⟩ := h1
  obtain ⟨⟨n', d1⟩, h7, h8⟩ := h2
  simp only [Prod.mk.injEq, Option.isNone_iff_eq_none] at h8
  obtain ⟨rfl, h8⟩ := h8
  cases h6
  exact ⟨z0, z1, z2, z3, b0, _, d1, h0, h3, h4, h5, h7, h8⟩

/-- The bits of a record of 20000 numbers of one byte. -/
theorem huge_bits {mem src : Bytes} {mb sb : Nat} {x y : UInt8} {c : Nat} (hs : ∀ j, j < 20000 → Dyn.elem src (sb + j) 1 = some [x]) (hm : ∀ j, j < 20000 → Dyn.elem mem (mb + j) 1 = some [y])
    (hc : (callBits (incrIntCalls (Dyn.signed 1 (leVal [x])) (Dyn.signed 1 (leVal [y])))).length = c) {cs : List (Nat × Nat)} (h : recCalls ⟨hugeTab, 0, 1⟩ mem mb src sb = some cs) :
    (callBits cs).length = 20000 * c := by
  unfold recCalls at h
  simp only [show List.range 1 = [0] from rfl, List.map_cons, List.map_nil, Dyn.collect, Option.map_some, Option.bind_eq_some_iff, Option.some.injEq] at h
  obtain ⟨cs', ⟨f, h5, h6⟩, h7⟩ := h
  rw [show Dyn.fieldAt hugeTab 0 = some ⟨[0x76], .int, 1, 20000, 0, 0, false, false⟩ from rfl] at h5
  cases h5
  have hb := collect_bits _ (incrIntCalls (Dyn.signed 1 (leVal [x])) (Dyn.signed 1 (leVal [y]))) _ cs' (by
    intro j hj
    have hj : j < 20000 := List.mem_range.1 hj
    have h8 := hs j hj
    have h9 := hm j hj
    unfold elemCalls
    dsimp only
    unfold Dyn.getInt
    dsimp only
    rw [if_pos (by decide), if_pos (by decide), Nat.mul_one, Nat.add_zero, Nat.add_zero, h8, h9]
    rfl) h6
  rw [List.length_range, hc] at hb
  rw [List.append_nil] at h7
  subst h7
  exact hb

theorem elem_of_replicate {src : Bytes} {n p : Nat} {x : UInt8} (h : Dyn.elem src p n = some (List.replicate n x)) : ∀ j, j < n → Dyn.elem src (p + j) 1 = some [x] := by
  intro j hj
  have hl := (Dyn.elem_some h).2.1
  rw [elem_elem h (p := j) (n := 1) (by omega), elem_eq_some (by simp; omega), List.drop_replicate, List.take_replicate, Nat.min_eq_left (by omega)]
  rfl

theorem start_ok {z : Z} {m : Int} (h1 : z.status = 3) (h2 : 16384 ≤ m) (h3 : ¬ ((m.toNat + z.maxdb + 256) * 8 ≥ 2 ^ 31 ∨ z.keys * z.sum ≥ 2 ^ 32)) :
    ∃ z1, start z m = some (0, z1) ∧ z1.status = 7 ∧ z1.tabs = z.tabs ∧ z1.keys = z.keys ∧ z1.sum = z.sum ∧ z1.mem = List.replicate (z.keys * z.sum) 0 ∧ z1.s.pos = 0 ∧
      z1.s.buf.length = m.toNat + z.maxdb + 256 ∧ z1.zsize = m.toNat ∧ z1.bagsize = z.bagsize := by
  have hm : (if m < 16384 then 16384 else m.toNat) = m.toNat := if_neg (by omega)
  unfold start
  rw [if_neg (by simp [h1])]
  dsimp only
  rw [hm, if_neg h3]
  exact ⟨_, rfl, rfl, rfl, rfl, rfl, rfl, rfl, List.length_replicate, rfl, rfl⟩

/-- C09 fails: two records of 20000 numbers of one byte are written outside of the memory of the compressor. -/
theorem C09_overflow_violated : ∃ z1, Plain hugeTab ∧ Ready [hugeTab] 1 (setKey (oneTab hugeTab) 1).2 ∧ start (setKey (oneTab hugeTab) 1).2 40272 = some (0, z1) ∧ hugeTab.size = 20000 ∧
    step z1 0 0 (List.replicate 20000 100 ++ List.replicate 20000 0) = none := by
  have hR : Ready [hugeTab] 1 (setKey (oneTab hugeTab) 1).2 := .key 1 (oneTab_ready (by decide))
  obtain ⟨z1, hz1, e1, e2, e3, e4, e5, e6, e7, e8, e9⟩ := start_ok (z := (setKey (oneTab hugeTab) 1).2) (m := 40272) rfl (by decide) (by decide)
  rw [show (setKey (oneTab hugeTab) 1).2.tabs = [⟨hugeTab, 0, 1⟩] from rfl] at e2
  rw [show (setKey (oneTab hugeTab) 1).2.keys = 1 from rfl] at e3
  rw [show (setKey (oneTab hugeTab) 1).2.sum = 20001 from rfl] at e4
  rw [show (setKey (oneTab hugeTab) 1).2.keys * (setKey (oneTab hugeTab) 1).2.sum = 20001 by decide] at e5
  rw [show (40272 : Int).toNat + (setKey (oneTab hugeTab) 1).2.maxdb + 256 = 60528 by decide] at e7
  rw [show (40272 : Int).toNat = 40272 by decide] at e8
  rw [show (setKey (oneTab hugeTab) 1).2.bagsize = 0 from rfl] at e9
  refine ⟨z1, hugeTab_plain, hR, hz1, rfl, ?_⟩
  clear hz1 hR
  obtain ⟨src, hsrc, hl, ha, hb⟩ : ∃ src : Bytes, src = List.replicate 20000 100 ++ List.replicate 20000 0 ∧ src.length = 40000 ∧ Dyn.elem src (0 * 20000) 20000 = some (List.replicate 20000 100) ∧
      Dyn.elem src (1 * 20000) 20000 = some (List.replicate 20000 0) := by
    refine ⟨_, rfl, by rw [List.length_append, List.length_replicate, List.length_replicate], ?_, ?_⟩
    · rw [elem_eq_some (by rw [List.length_append, List.length_replicate, List.length_replicate]; omega), Nat.zero_mul, List.drop_zero,
        List.take_append_of_le_length (by rw [List.length_replicate]; omega), List.take_of_length_le (by rw [List.length_replicate]; omega)]
    · rw [elem_eq_some (by rw [List.length_append, List.length_replicate, List.length_replicate]; omega), Nat.one_mul, List.drop_append, List.length_replicate, Nat.sub_self, List.drop_zero,
        List.drop_of_length_le (by rw [List.length_replicate]; omega), List.nil_append, List.take_of_length_le (by rw [List.length_replicate]; omega)]
  rw [← hsrc]
  have hm0 : Dyn.elem z1.mem (0 + 1) 20000 = some (List.replicate 20000 0) := by
    rw [e5, elem_eq_some (by rw [List.length_replicate]; omega), List.drop_replicate, List.take_replicate]
    rfl
  refine Option.eq_none_iff_forall_ne_some.2 fun r h => ?_
  unfold step at h
  rw [if_neg (by rw [e1]; decide), if_neg (by decide), e2] at h
  simp only [show (0 : Int).toNat = 0 from rfl, List.getElem?_cons_zero] at h
  rw [if_neg (by decide)] at h
  unfold curMem at h
  rw [e3, if_pos (by decide), e4, e8, hl, show hugeTab.size = 20000 from rfl] at h
  dsimp only at h
  rw [if_neg (by decide), if_neg (by decide), if_neg (by decide), if_neg (by unfold getSize; rw [e6, e9]; decide), Option.bind_some] at h
  simp only [Option.map_eq_some_iff] at h
  obtain ⟨z2, h, -⟩ := h
  unfold bag at h
  simp only [Option.bind_eq_some_iff] at h
  obtain ⟨flag, -, s1, h1, q, h2, -⟩ := h
  rw [show 40000 / 20000 = 0 + 1 + 1 from rfl, show 0 * 20001 + 0 = 0 from rfl] at h2
  obtain ⟨g1, g2, -⟩ := putAll_effect (by rw [e6]; exact Nat.zero_le _) h1
  have r1 := (putAll_room (by rw [e6]; exact Nat.zero_le _) h1).1
  unfold encRecs at h2
  simp only [Option.bind_eq_some_iff] at h2
  obtain ⟨cs, h3, s2, h4, r, h5, m1, h6, m2, h7, h8⟩ := h2
  have hr0 : r = List.replicate 20000 100 := by
    rw [show (⟨hugeTab, 0, 1⟩ : Tab).db.size = 20000 from rfl, ha] at h5
    exact (Option.some.inj h5).symm
  have hc1 := huge_bits (x := 100) (y := 0) (c := 14) (elem_of_replicate ha) (elem_of_replicate hm0) (by decide +kernel) h3
  obtain ⟨-, -, k1, -⟩ := keep_ok (size := 20000) (by rw [hr0, List.length_replicate]) h6 h7
  unfold encRecs at h8
  simp only [Option.bind_eq_some_iff] at h8
  obtain ⟨cs', h9, s3, h10, -⟩ := h8
  rw [hr0] at k1
  have hc2 := huge_bits (x := 0) (y := 100) (c := 14) (elem_of_replicate hb) (elem_of_replicate k1) (by decide +kernel) h9
  have r2 := (putAll_room (by rw [g1, g2]; omega) h4).1
  obtain ⟨g3, g4, -⟩ := putAll_effect (by rw [g1, g2]; omega) h4
  have r3 := (putAll_room (by rw [g3, g4]; omega) h10).1
  omega

end Sis.Zip
