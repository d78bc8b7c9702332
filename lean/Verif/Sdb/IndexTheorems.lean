import Verif.Sdb.FileLemmas
import Verif.Sdb.IndexSpec
import Verif.Sdb.Sample
/- C25: the index of a data file. -/
namespace Sis.Sdb
open Sis Sis.Disk
open Sis.Dyn (sameN getN setN Db sameN_iff sameN_refl)

theorem ne_same {a b : Bytes} (h : a.map lower ≠ b.map lower) : sameN a b = false := by
  cases hs : sameN a b with
  | false => rfl
  | true => exact absurd (sameN_iff.1 hs) h

theorem entryName_eq (k : Bytes) (s : Option Bytes) : entryName k s = nodeName k s := by
  cases s with
  | none => rfl
  | some s =>
    show k ++ ".".toUTF8.toList ++ s = k ++ 46 :: s
    rw [show ".".toUTF8.toList = [46] by decide +kernel, List.append_assoc]
    rfl

theorem blocksOf_eq (idx : Idx) (n : Bytes) : blocksOf idx n = dictUnits idx n := by
  unfold blocksOf dictUnits getN sameN
  rw [Option.map_map]
  rfl

theorem isEntry_eq (n : Bytes) : isEntry n = (!sameN signKeys n && !sameN signTabs n) := by
  unfold isEntry sameN
  rw [show "_keys_".toUTF8.toList = signKeys.map lower by decide +kernel, show "_sdbs_".toUTF8.toList = signTabs.map lower by decide +kernel,
    Bool.beq_comm (a := n.map lower), Bool.beq_comm (a := n.map lower)]

/-- The index that is written when a data file is closed is read back with the dictionaries, and with the same entries in the
same order with the same blocks, if the lines of the trace are not compiled in, keys and tables of the entries are in the
dictionaries, names have no more than 254 bytes and differ by more than case, and the index file is under 2 GB and
no size field in it is read in two pieces.  `body` is the data file, in which the two entries of the dictionaries point to the keys `keys` and the tables `tabs`.

What is missing for the full C25: `C25_violated_trace`, `C25_violated_long_names`, and index files over 2 GB or with a size field that is read in two pieces (see C21). -/
theorem C25_index_back_partial (lib : Lib) (htrace : lib.trace = false) (body : Bytes) (keys : List Bytes) (tabs : TDict) (idx : Idx)
    (hnames : idx.Pairwise fun a b => a.1.map lower ≠ b.1.map lower)
    (hkeys : keys.Pairwise fun a b => a.map lower ≠ b.map lower) (htabs : tabs.Pairwise fun a b => a.1.map lower ≠ b.1.map lower)
    (hkd : readKeys lib body [] (blocksOf idx "_keys_".toUTF8.toList) = some keys)
    (hsd : readTabs lib body [] (blocksOf idx "_sdbs_".toUTF8.toList) = some tabs)
    (hent : ∀ e ∈ idx, isEntry e.1 = true → e.1.length ≤ 254 ∧ ∃ k s, Known keys tabs e k s)
    (hblk : ∀ e ∈ idx, e.2.units.length < 2 ^ 31 ∧ ∀ u ∈ e.2.units, InTypes u) :
    ∃ file, (encIdx lib idx).map idxFile = some file ∧
      (Disk.Readable file → ∃ r, readIdx lib body file = some r ∧ r.kd = keys ∧ r.sd = tabs ∧
        r.idx.filter (fun e => isEntry e.1) = idx.filter fun e => isEntry e.1) := by
  have e1 : "_keys_".toUTF8.toList = signKeys := by decide +kernel
  have e2 : "_sdbs_".toUTF8.toList = signTabs := by decide +kernel
  rw [e1, blocksOf_eq] at hkd
  rw [e2, blocksOf_eq] at hsd
  have hdata : ∀ l : Idx, l.filter (fun e => isEntry e.1) = data l := by
    intro l
    unfold data
    congr 1
    funext e
    exact isEntry_eq e.1
  have hr : ∀ e ∈ idx, ∀ u ∈ e.2.units, InRange u := by
    intro e he u hu
    have h := (hblk e he).2 u hu
    exact ⟨h.active, h.ktype, h.sdict, h.fidx, h.offset, h.size, h.start, h.stop⟩
  have hcount : ∀ n, (dictUnits idx n).length < 2 ^ 31 := by
    intro n
    unfold dictUnits
    cases hg : getN idx n with
    | none => simp
    | some nd =>
      obtain ⟨i, e, h1, h2, _⟩ := Dyn.getN_some hg
      simp only [Option.map_some, Option.getD_some]
      rw [← h2]
      exact (hblk e (List.mem_of_getElem? h1)).1
  have hiok : IdxOk lib body keys tabs idx := by
    refine ⟨hnames.imp fun h => ne_same h, ?_, hkd, hsd, hcount _, hcount _, ?_, ?_⟩
    · intro e he
      have he1 := (List.mem_filter.1 he).1
      obtain ⟨hl, k, s, hk⟩ := hent e he1 (by rw [isEntry_eq]; exact (List.mem_filter.1 he).2)
      refine ⟨k, s, by rw [hk.name, entryName_eq], hk.kname, hk.sname, hl, getKey_self (hkeys.imp fun h => ne_same h) hk.key, ?_, (hblk e he1).1, hr e he1⟩
      intro t ht
      obtain ⟨h1, h2⟩ := hk.tab t ht
      obtain ⟨o, ho, ho2⟩ := List.mem_map.1 h2
      refine ⟨h1, o.2, ?_⟩
      rw [← ho2]
      exact tab_self (htabs.imp fun h => ne_same h) ho
    · intro u hu
      obtain ⟨e, he, hu⟩ := dictUnits_mem hu
      exact hr e he u hu
    · intro u hu
      obtain ⟨e, he, hu⟩ := dictUnits_mem hu
      exact hr e he u hu
  obtain ⟨bs, h1, h2⟩ := file_back htrace hiok
  refine ⟨idxFile bs, by rw [h1]; rfl, fun hf => ?_⟩
  refine ⟨_, h2 hf, rfl, rfl, ?_⟩
  rw [hdata, hdata]
  exact data_back idx

/-- With the lines of the trace compiled in, as they are in the source, the index of a file with a value without table (a
single value or a list) is not written: the line reads the name of the table. -/
theorem C25_violated_trace (lib : Lib) (htrace : lib.trace = true) (idx : Idx) (e : Bytes × Node) (he : e ∈ idx)
    (hent : isEntry e.1 = true) (hs : e.2.sname = none) : encIdx lib idx = none := by
  have hn : encNode lib e.2 = none := by
    unfold encNode
    cases e.2.kname with
    | none => rfl
    | some k => simp [htrace, hs]
  have hp : ∀ (ns : List Node) (mem : Bytes), e.2 ∈ ns → encPages lib mem ns = none := by
    intro ns
    induction ns with
    | nil => intro mem h; cases h
    | cons n ns ih =>
      intro mem h
      simp only [encPages]
      rcases List.mem_cons.1 h with h | h
      · rw [← h, hn]; rfl
      · cases encNode lib n with
        | none => rfl
        | some b =>
          simp only [Option.bind_some]
          rw [ih _ h, ih _ h]
          simp
  unfold encIdx
  simp only
  rw [hp _ _ (List.mem_map.2 ⟨e, List.mem_filter.2 ⟨he, by rw [← isEntry_eq]; exact hent⟩, rfl⟩)]
  rfl

/-! ### Concrete cases -/

namespace Sample

/-- A file with one key, one table, a block of the table and a value. -/
def small : Ctl :=
  let c := writeTabs (lib false) (writeKeys (lib false) (setTab (setKey { kind := .year } (b "k1")) ⟨b "day", dayDb⟩))
  let c := writeMsg (lib false) c (b "k1") (some (b "day")) hidSdb 0 { start := 20210601, stop := 20210630, sdict := 1 } (catSsize 0 ++ catSsize 0 ++ [1, 2, 3, 4, 5, 6, 7, 8])
  let c := writeMsg (lib false) c (b "k1") (some (b "day")) hidSdb 0 { start := 20210701, stop := 20210702, sdict := 1 } (catSsize 0 ++ catSsize 0 ++ [1, 2, 3, 4, 5, 6, 7, 9])
  writeMsg (lib false) c (b "k1") none hidOne 2 {} (catSsize 0 ++ catSsize 2 ++ [7, 8])

/-- Two tables whose names with the key are longer than 254 bytes. -/
def longKey : Bytes := List.replicate 200 97
def longTab (c : UInt8) : Bytes := List.replicate 60 98 ++ [c]
def long : Ctl :=
  let c := writeTabs (lib false) (writeKeys (lib false) (setTab (setTab (setKey { kind := .year } longKey) ⟨longTab 97, dayDb⟩) ⟨longTab 98, dayDb⟩))
  let c := writeMsg (lib false) c longKey (some (longTab 97)) hidSdb 0 { start := 20210601, stop := 20210601, sdict := 1 } (catSsize 0 ++ catSsize 0 ++ [1, 2, 3, 4, 5, 6, 7, 8])
  writeMsg (lib false) c longKey (some (longTab 98)) hidSdb 0 { start := 20210601, stop := 20210601, sdict := 1 } (catSsize 0 ++ catSsize 1 ++ [9, 9, 9, 9, 9, 9, 9, 9])

end Sample

/-- The names of the entries of a file read back. -/
def Sample.entries (c : Ctl) : Option (List Bytes) :=
  ((encIdx (Sample.lib false) c.idx).bind fun bs => readIdx (Sample.lib false) c.body (idxFile bs)).map fun r =>
    (r.idx.filter fun e => isEntry e.1).map (·.1)

/-- Names of more than 254 bytes are cut when they are read: of two entries that differ behind that one is lost. -/
theorem C25_violated_long_names :
    (Sample.long.idx.filter fun e => isEntry e.1).map (fun e => e.1.length) = [262, 262] ∧
      (Sample.entries Sample.long).map (fun l => l.map List.length) = some [254] := by decide +kernel

/-- An entry whose key is not in the dictionary of the file cannot be read back (the code uses the NULL it finds). -/
theorem C25_violated_unknown_key :
    (encIdx (Sample.lib false) [(Sample.b "k2.day", ⟨some (Sample.b "k2"), some (Sample.b "day"), []⟩)]).isSome = true ∧
      ((encIdx (Sample.lib false) [(Sample.b "k2.day", ⟨some (Sample.b "k2"), some (Sample.b "day"), []⟩)]).bind fun bs =>
        readIdx (Sample.lib false) [] (idxFile bs)).isNone = true := by decide +kernel

/-- The hypotheses of `C25_index_back_partial` are met by a file with three blocks. -/
example :
    Sample.small.idx.Pairwise (fun a b => a.1.map lower ≠ b.1.map lower) ∧
      readKeys (Sample.lib false) Sample.small.body [] (blocksOf Sample.small.idx "_keys_".toUTF8.toList) = some [Sample.b "k1"] ∧
      readTabs (Sample.lib false) Sample.small.body [] (blocksOf Sample.small.idx "_sdbs_".toUTF8.toList) = some [(Sample.b "day", [Sample.dayDb])] ∧
      (Sample.small.idx.filter fun e => isEntry e.1).map (fun e => (e.1, e.2.kname, e.2.sname, e.2.units.length)) =
        [(entryName (Sample.b "k1") (some (Sample.b "day")), some (Sample.b "k1"), some (Sample.b "day"), 2),
          (entryName (Sample.b "k1") none, some (Sample.b "k1"), none, 1)] ∧
      Sample.entries Sample.small = some [Sample.b "k1.day", Sample.b "k1"] := by decide +kernel

end Sis.Sdb
