import Verif.Sdb.Writer
import Verif.Disk.LogTheorems
import Verif.Disk.FullLemmas
import Verif.Dyn.DynLemmas
/- Lemmas on blocks: what is written is found at its place. -/
namespace Sis.Sdb
open Sis Sis.Disk
open Sis.Dyn (sameN getN setN Db)

theorem hidOf_head {z h : Nat} (hz : z ≤ 1) (hh : h < 32) : hidOf (headByte 1 z h) = h := by
  unfold hidOf headByte
  rw [UInt8.toNat_ofNat_of_lt' (by show _ < 256; omega)]
  omega

theorem zipOf_head {z h : Nat} (hz : z ≤ 1) (hh : h < 32) : zipOf (headByte 1 z h) = z := by
  unfold zipOf headByte
  rw [UInt8.toNat_ofNat_of_lt' (by show _ < 256; omega)]
  omega

/-! ### Reading a whole file -/

theorem scan_blocks (bs : List (UInt8 × Bytes)) (h : ∀ b ∈ bs, hidOf b.1 ≠ 0 ∧ hidOf b.1 ≠ 31 ∧ b.2.length < 2 ^ 64) (t : UInt8) (ht : hidOf t = 31)
    (tl : Bytes) (htl : 3 ≤ tl.length) :
    ∀ s : Scan, s.lineEnd = true → s.stop = false → s.mem = bs.flatMap (fun b => encRec b.1 b.2) ++ t :: tl →
      ∃ s', scanInner (fullCfg fun _ _ => .next) s = some s' ∧ s'.stop = true ∧
        (s'.out.map fun r => (r.1, r.2.2)) = (s.out.map fun r => (r.1, r.2.2)) ++ bs := by
  induction bs with
  | nil =>
    intro s h1 h2 h3
    rw [scanInner]
    rw [if_pos (by rw [h3]; simp [fullCfg]; omega), if_pos h1]
    split
    · rename_i hm; rw [h3] at hm; cases hm
    · rename_i b m hm
      rw [h3] at hm
      simp only [List.flatMap_nil, List.nil_append, List.cons.injEq] at hm
      rw [← hm.1, if_pos (by simp [fullCfg, hidTail, ht])]
      exact ⟨_, rfl, rfl, by simp⟩
  | cons r bs ih =>
    intro s h1 h2 h3
    have hr := h r (by simp)
    have hmem : s.mem = r.1 :: (catSsize r.2.length ++ (r.2 ++ (bs.flatMap (fun b => encRec b.1 b.2) ++ t :: tl))) := by
      rw [h3]; simp [encRec]
    rw [scanInner]
    rw [if_pos (by rw [hmem]; simp [fullCfg]; omega), if_pos h1]
    split
    · rename_i hm; rw [hmem] at hm; cases hm
    · rename_i b m hm
      rw [hmem] at hm
      simp only [List.cons.injEq] at hm
      obtain ⟨hb, hm⟩ := hm
      have hss := C01_ssize_roundtrip _ hr.2.2 (r.2 ++ (bs.flatMap (fun b => encRec b.1 b.2) ++ t :: tl))
      rw [if_neg (by simp [fullCfg, hidTail, ← hb, hr.2.1])]
      split
      · rename_i hg; rw [← hm, hss] at hg; cases hg
      · rename_i n m' hg
        rw [← hm, hss] at hg
        simp only [Option.some.injEq, Prod.mk.injEq] at hg
        obtain ⟨hn, hm'⟩ := hg
        subst hn hm'
        rw [if_neg (by simp)]
        rw [List.take_left, List.drop_left]
        simp only [fullCfg, ← hb, hr.1, hidNone, if_false]
        obtain ⟨s', g1, g2, g3⟩ := ih (fun b hb => h b (by simp [hb]))
          { s with mem := bs.flatMap (fun b => encRec b.1 b.2) ++ t :: tl, size := 0, head := r.1, hlen := m.length - (r.2 ++ (bs.flatMap (fun b => encRec b.1 b.2) ++ t :: tl)).length, out := s.out ++ [(r.1, m.length - (r.2 ++ (bs.flatMap (fun b => encRec b.1 b.2) ++ t :: tl)).length, r.2)] } h1 h2 rfl
        exact ⟨s', g1, g2, by rw [g3]; simp⟩

/-- A file of whole blocks with its tail, read in one piece, gives the blocks. -/
theorem readFull_one (bs : List (UInt8 × Bytes)) (h : ∀ b ∈ bs, hidOf b.1 ≠ 0 ∧ hidOf b.1 ≠ 31 ∧ b.2.length < 2 ^ 64) (t : UInt8)
    (ht : hidOf t = 31) (tl : Bytes) (htl : 3 ≤ tl.length) (k : Nat)
    (hk : (bs.flatMap (fun b => encRec b.1 b.2) ++ t :: tl).length ≤ k + 1) :
    readFull (fun _ _ => .next) (chunksOf k (bs.flatMap (fun b => encRec b.1 b.2) ++ t :: tl)) = some bs := by
  rw [chunksOf_one hk (by simp)]
  obtain ⟨s', g1, g2, g3⟩ := scan_blocks bs h t ht tl htl { ({} : Scan) with mem := bs.flatMap (fun b => encRec b.1 b.2) ++ t :: tl } rfl rfl rfl
  unfold readFull scanChunks
  rw [if_neg (by simp)]
  have he : scanInner (fullCfg fun _ _ => .next) { ({} : Scan) with mem := ({} : Scan).mem ++ (bs.flatMap (fun b => encRec b.1 b.2) ++ t :: tl) } = some s' := g1
  rw [he]
  simp only [g2, if_true, Option.map_some, g3]
  simp

/-! ### Reading one block -/

theorem encRec_len (b : UInt8) (d : Bytes) : (encRec b d).length = 1 + (catSsize d.length).length + d.length := by
  simp [encRec]; omega

theorem readAt_block (body : Bytes) (b : UInt8) (d rest : Bytes) (hd : d.length < 2 ^ 64) :
    readAt (body ++ encRec b d ++ rest) (mainHead + body.length) (encRec b d).length = some (d.length, b, d) := by
  unfold readAt
  rw [if_neg (by omega), Nat.add_sub_cancel_left, List.append_assoc, List.drop_left, List.take_left]
  have := C01_ssize_roundtrip d.length hd d
  simp [encRec, this]

/-- A block that is in a file. -/
def Within (body : Bytes) (u : IUnit) : Prop := mainHead ≤ u.offset ∧ u.offset - mainHead + u.size ≤ body.length

theorem readAt_append {body : Bytes} {off size : Nat} (x : Bytes) (h : off - mainHead + size ≤ body.length) :
    readAt (body ++ x) off size = readAt body off size := by
  unfold readAt
  split
  · rfl
  · rw [List.drop_append_of_le_length (by omega), List.take_append_of_le_length (by simp; omega)]

theorem readSdb_append {lib : Lib} {body : Bytes} {off size : Nat} (x : Bytes) (h : off - mainHead + size ≤ body.length) :
    readSdb lib (body ++ x) off size = readSdb lib body off size := by
  unfold readSdb; rw [readAt_append x h]

/-- What is asked of the compression. -/
structure ZipOk (lib : Lib) : Prop where
  back : ∀ b z, lib.compress b = some z → z ≠ [] ∧ lib.uncompress z = some b

theorem packed_read {lib : Lib} (L : ZipOk lib) (z : Bool) {hid : Nat} (hh : hid < 32) {d : Bytes} (hd : d ≠ []) :
    hidOf (packed lib z hid d).1 = hid ∧ (packed lib z hid d).2 ≠ [] ∧ unzip lib (packed lib z hid d).1 (packed lib z hid d).2 = some d := by
  unfold packed
  split
  · split
    · rename_i c hc
      have := L.back d c hc
      refine ⟨hidOf_head (by omega) hh, this.1, ?_⟩
      unfold unzip
      simp only [zipOf_head (show (1 : Nat) ≤ 1 by omega) hh]
      rw [if_neg (by decide), if_pos trivial, this.2]
      simp [hd]
    · refine ⟨hidOf_head (by omega) hh, hd, ?_⟩
      unfold unzip
      simp only [zipOf_head (show (0 : Nat) ≤ 1 by omega) hh]
      rw [if_pos trivial, if_neg hd]
  · refine ⟨hidOf_head (by omega) hh, hd, ?_⟩
    unfold unzip
    simp only [zipOf_head (show (0 : Nat) ≤ 1 by omega) hh]
    rw [if_pos trivial, if_neg hd]

theorem readSdb_key {lib : Lib} (L : ZipOk lib) (z : Bool) {hid : Nat} (hh : hid = hidOne ∨ hid = hidMul) (body rest : Bytes) (i : Nat) (hi : i < 2 ^ 64) (d : Bytes)
    (hz : (packed lib z hid (catSsize i ++ d)).2.length < 2 ^ 64) :
    readSdb lib (body ++ block lib z hid (catSsize i ++ d) ++ rest) (mainHead + body.length) (block lib z hid (catSsize i ++ d)).length =
      some (hid, d) := by
  have hne : catSsize i ++ d ≠ [] := by
    intro h
    have := congrArg List.length h
    have hl := C01_ssize_length i
    simp at this
    rw [this.1] at hl
    unfold catSsizeRet at hl
    simp at hl
    repeat' split at hl
    all_goals omega
  have hlt : hid < 32 := by rcases hh with rfl | rfl <;> decide
  obtain ⟨p1, p2, p3⟩ := packed_read L z hlt hne
  unfold readSdb block
  rw [readAt_block _ _ _ _ hz]
  simp only [Option.bind_some]
  rw [if_neg (by simpa using p2), p3]
  simp only [p1]
  rw [if_pos hh, C01_ssize_roundtrip _ hi]
  rfl

theorem readSdb_tab {lib : Lib} (L : ZipOk lib) (z : Bool) {hid : Nat} (hh : hid = hidSdb ∨ hid = hidNon) (body rest : Bytes) (i j : Nat) (hi : i < 2 ^ 64) (hj : j < 2 ^ 64)
    (d : Bytes) (hz : (packed lib z hid (catSsize i ++ catSsize j ++ d)).2.length < 2 ^ 64) :
    readSdb lib (body ++ block lib z hid (catSsize i ++ catSsize j ++ d) ++ rest) (mainHead + body.length)
      (block lib z hid (catSsize i ++ catSsize j ++ d)).length = some (hid, d) := by
  have hne : catSsize i ++ catSsize j ++ d ≠ [] := by
    intro h
    have := congrArg List.length h
    have hl := C01_ssize_length i
    simp at this
    rw [this.1] at hl
    unfold catSsizeRet at hl
    simp at hl
    repeat' split at hl
    all_goals omega
  have hlt : hid < 32 := by rcases hh with rfl | rfl <;> decide
  obtain ⟨p1, p2, p3⟩ := packed_read L z hlt hne
  unfold readSdb block
  rw [readAt_block _ _ _ _ hz]
  simp only [Option.bind_some]
  rw [if_neg (by simpa using p2), p3]
  simp only [p1]
  rw [if_neg (by rcases hh with rfl | rfl <;> decide), if_pos (by rcases hh with h | h <;> simp [h]), List.append_assoc, C01_ssize_roundtrip _ hi]
  simp only [Option.bind_some]
  rw [C01_ssize_roundtrip _ hj]
  rfl

/-- A dictionary block is found as it was written. -/
theorem readAt_plain (lib : Lib) {hid : Nat} (hh : hid < 32) (body rest : Bytes) {d : Bytes} (hd : d ≠ []) (hl : d.length < 2 ^ 64) :
    ∃ b, readAt (body ++ block lib false hid d ++ rest) (mainHead + body.length) (block lib false hid d).length = some (d.length, b, d) ∧
      unzip lib b d = some d := by
  refine ⟨headByte 1 0 hid, ?_, ?_⟩
  · have := readAt_block body (headByte 1 0 hid) d rest hl
    simpa [block, packed] using this
  · unfold unzip
    rw [zipOf_head (by omega) hh, if_pos rfl, if_neg hd]

end Sis.Sdb
