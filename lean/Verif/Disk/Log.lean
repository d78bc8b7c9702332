import Verif.Memory.Ssize
/-
Model of the message log of `src/core/disk`: writing records, the scan that finds the append position after a crash, and
the sequential reader that is also used for map, index and data files.
-/
namespace Sis.Disk

/-- `s_sis_disk_head` (src/core/disk/sis_disk.io.h:120-123 and 242-244): `fin:1`, `zip:2`, `hid:5` in one byte, least
significant bit first. -/
def headByte (fin zip hid : Nat) : UInt8 := UInt8.ofNat (fin + 2 * zip + 8 * hid)

/-- The `hid` member of a head byte (`s_sis_disk_head`, src/core/disk/sis_disk.io.h:242-244). -/
def hidOf (b : UInt8) : Nat := b.toNat / 8

/-- `SIS_DISK_HID_NONE`, `SIS_DISK_HID_MSG_LOG`, `SIS_DISK_HID_TAIL` (src/core/disk/sis_disk.io.h:129-188). -/
def hidNone : Nat := 0
/-- `SIS_DISK_HID_MSG_LOG` (src/core/disk/sis_disk.io.h:137). -/
def hidLog : Nat := 4
/-- `SIS_DISK_HID_TAIL` (src/core/disk/sis_disk.io.h:188). -/
def hidTail : Nat := 0x1F

/-- The head written by `sis_disk_io_write_log` (src/core/disk/sis_disk.io.log.c:6-26). -/
def logHead : UInt8 := headByte 1 0 hidLog

/-- The bytes of one record: `sis_disk_files_write` (src/core/disk/sis_disk_files.c:460-484), log branch; the same layout is
produced by `sis_safe_write` (src/core/disk/sis_disk_files.c:433-459). -/
def encRec (h : UInt8) (d : Bytes) : Bytes := h :: (catSsize d.length ++ d)

/-- A sequence of log records (calls of `sis_disk_io_write_log`, src/core/disk/sis_disk.io.log.c:6-26). -/
def encLog (recs : List Bytes) : Bytes := recs.flatMap (encRec logHead)

/-- The state of the scanning loops: unread bytes of `imem`, and the locals `size`, `LINEEND`, `head`, `ssize`;
`out` lists the records passed so far as head byte, length of the size field, data; `stop` is `FILEEND`/`READSTOP` set inside
the inner loop (src/core/disk/sis_disk_files.c:181-222 and 542-610). -/
structure Scan where
  mem : Bytes := []
  size : Nat := 0
  lineEnd : Bool := true
  head : UInt8 := 0
  hlen : Nat := 0
  out : List (UInt8 × Nat × Bytes) := []
  stop : Bool := false
deriving DecidableEq

/-- What is done with a record: passed on, passed on and stop, stop without passing on (src/core/disk/sis_disk_files.c:194-221 and 563-609). -/
inductive Act
  | next | last | bad

/-- The differences between the two scanning loops (src/core/disk/sis_disk_files.c:181-222 and 542-610). -/
structure ScanCfg where
  /-- bytes that must be in the buffer to go on -/
  min : Nat
  /-- the head bytes that end the scan -/
  endHead : UInt8 → Bool
  /-- the reaction to a record -/
  act : UInt8 → Bytes → Act

theorem getSsize_length {m r : Bytes} {n : Nat} (h : getSsize m = some (n, r)) : r.length < m.length := by
  have hb : ∀ (k : Nat) (a : Bytes) (v : Nat) (b : Bytes), getByte k a = some (v, b) → b.length ≤ a.length := by
    intro k a v b hab
    unfold getByte at hab
    split at hab
    · cases ht : takeBytes k a with
      | none => rw [ht] at hab; cases hab
      | some x =>
        rw [ht] at hab
        obtain ⟨x1, x2⟩ := x
        simp only [Option.map_some, Option.some.injEq, Prod.mk.injEq] at hab
        have := (takeBytes_eq_some).1 ht
        rw [this.1, ← hab.2]; simp
    · cases hab; exact Nat.le_refl _
  cases m with
  | nil => simp [getSsize, getByte, takeBytes] at h
  | cons c m =>
    have h1 : getByte 1 (c :: m) = some (c.toNat, m) := by simp [getByte, takeBytes, leVal]
    unfold getSsize at h
    rw [h1] at h
    simp only at h
    have hm : ∀ k (f : Nat → Nat), (getByte k m).map (fun x => (f x.1, x.2)) = some (n, r) → r.length ≤ m.length := by
      intro k f hf
      cases hg : getByte k m with
      | none => rw [hg] at hf; cases hf
      | some x =>
        rw [hg] at hf
        simp only [Option.map_some, Option.some.injEq, Prod.mk.injEq] at hf
        rw [← hf.2]
        exact hb k m x.1 x.2 hg
    have : r.length ≤ m.length := by
      split at h
      · exact hb _ _ _ _ h
      · split at h
        · exact hb _ _ _ _ h
        · split at h
          · exact hm 2 (· + 250) h
          · split at h
            · exact hm 1 (· + 250) h
            · injection h with h; injection h with h1 h2; rw [h2]; exact Nat.le_refl _
    simp; omega

/-- The inner loop of `sis_disk_files_seek_log` (src/core/disk/sis_disk_files.c:194-221) and of
`sis_disk_files_read_fulltext` (src/core/disk/sis_disk_files.c:563-609).  `none`: the size field is read past the bytes in the
buffer (the C code does not test, the result is undefined). -/
def scanInner (c : ScanCfg) (s : Scan) : Option Scan :=
  if c.min ≤ s.mem.length then
    if s.lineEnd then
      match hm : s.mem with
      | [] => some s
      | b :: m =>
        if c.endHead b then some { s with mem := m, head := b, stop := true }
        else
          match hg : getSsize m with
          | none => none
          | some (n, m') =>
            let hlen := m.length - m'.length
            if m'.length < n then some { s with mem := m', size := n, lineEnd := false, head := b, hlen := hlen }
            else
              match c.act b (m'.take n) with
              | .bad => some { s with mem := m', size := n, head := b, hlen := hlen, stop := true }
              | .last => some { s with mem := m', size := n, head := b, hlen := hlen, out := s.out ++ [(b, hlen, m'.take n)], stop := true }
              | .next => scanInner c { s with mem := m'.drop n, size := 0, head := b, hlen := hlen, out := s.out ++ [(b, hlen, m'.take n)] }
    else
      match c.act s.head (s.mem.take s.size) with
      | .bad => some { s with stop := true }
      | .last => some { s with out := s.out ++ [(s.head, s.hlen, s.mem.take s.size)], stop := true }
      | .next => scanInner c { s with mem := s.mem.drop s.size, size := 0, lineEnd := true, out := s.out ++ [(s.head, s.hlen, s.mem.take s.size)] }
  else some s
termination_by 2 * s.mem.length + (if s.lineEnd then 0 else 1)
decreasing_by
  · have := getSsize_length hg
    simp [hm]
    omega
  · have : s.lineEnd = false := by simpa using ‹¬ s.lineEnd = true›
    simp [this]
    omega

/-- The outer loop of the same two functions (src/core/disk/sis_disk_files.c:181-222 and 542-610): the file is given as the
chunks `sis_memory_readfile` returns, the empty list is the end of the file. -/
def scanChunks (c : ScanCfg) : List Bytes → Scan → Option Scan
  | [], s => if s.mem.length < s.size then some s else scanInner c s
  | ch :: rest, s =>
    if (s.mem ++ ch).length < s.size then scanChunks c rest { s with mem := s.mem ++ ch }
    else
      match scanInner c { s with mem := s.mem ++ ch } with
      | none => none
      | some s' => if s'.stop then some s' else scanChunks c rest s'

/-- `sis_disk_files_seek_log` stops at the first head that is not a log record and has no callback (src/core/disk/sis_disk_files.c:166-223). -/
def seekCfg : ScanCfg := ⟨2, fun b => hidOf b != hidLog, fun _ _ => .next⟩

/-- `sizeof(s_sis_disk_main_head)` (src/core/disk/sis_disk.io.h:213-224). -/
def mainHead : Nat := 16

/-- `sis_disk_files_seek_log` (src/core/disk/sis_disk_files.c:166-223): the offset behind the last complete record. -/
def seekLog (chunks : List Bytes) : Option Nat :=
  (scanChunks seekCfg chunks {}).map fun s => mainHead + (s.out.map fun r => 1 + r.2.1 + r.2.2.length).sum

/-- `sis_disk_files_read_fulltext` (src/core/disk/sis_disk_files.c:522-623) with a callback `cb` that says whether a record is
taken and whether reading goes on. A record with `hid` 0 stops the reader. -/
def fullCfg (cb : UInt8 → Bytes → Act) : ScanCfg :=
  ⟨4, fun b => hidOf b == hidTail, fun b d => if hidOf b = hidNone then .bad else cb b d⟩

/-- `sis_disk_files_read_fulltext` (src/core/disk/sis_disk_files.c:522-623) on one file. -/
def readFull (cb : UInt8 → Bytes → Act) (chunks : List Bytes) : Option (List (UInt8 × Bytes)) :=
  (scanChunks (fullCfg cb) chunks {}).map fun s => s.out.map fun r => (r.1, r.2.2)

/-- `cb_sis_disk_io_read_log` (src/core/disk/sis_disk.io.log.c:28-52): anything but a log record ends the replay. -/
def cbLog (b : UInt8) (_ : Bytes) : Act := if hidOf b ≠ hidLog then .bad else .next

/-- `sis_disk_io_sub_log` (src/core/disk/sis_disk.io.log.c:54-90): the messages passed to the subscriber. -/
def replayLog (chunks : List Bytes) : Option (List Bytes) := (readFull cbLog chunks).map fun l => l.map Prod.snd

/-- How a file is read: `sis_memory_readfile` (src/core/sis_memory.c:338-363) returns `SIS_MEMORY_SIZE` bytes at a time
(src/core/sis_memory.h:10). -/
def readSize : Nat := 1024 * 1024 * 16

/-- The chunks of a file body for read size `k + 1` (`sis_memory_readfile`, src/core/sis_memory.c:338-363). -/
def chunksOf (k : Nat) (d : Bytes) : List Bytes :=
  if h : d = [] then [] else d.take (k + 1) :: chunksOf k (d.drop (k + 1))
termination_by d.length
decreasing_by
  have : d.length ≠ 0 := by simpa using h
  simp; omega

/-- The append branch of `sis_disk_files_open_append` (src/core/disk/sis_disk_files.c:224-270) with the seek of
`sis_disk_ctrl_write_start` (src/core/disk/sis_disk.io.c:792-797) for a log file: the body is truncated at the scanned
offset and new records go there. -/
def reopenLog (k : Nat) (body : Bytes) : Option Bytes :=
  (seekLog (chunksOf k body)).map fun off => body.take (off - mainHead)

/-- `sis_disk_files_write` for the log (src/core/disk/sis_disk_files.c:460-484): append one record. -/
def logWrite (body : Bytes) (d : Bytes) : Bytes := body ++ encRec logHead d

end Sis.Disk
