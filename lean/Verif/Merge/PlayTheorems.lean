import Verif.Merge.PlayLemmas
import Verif.Sdb.SampleHist
/-
C123: a subscription to one key of one table of a database on disk tells what a read of it returns.
-/
namespace Sis.Mrg
open Sis.Time (Style Env)
open Sis.Sdb (Lib Disk Uid Restores Readable Tables Hist KeyName TabName getRows recordsOf timeOf timeField fold session sessions)
open Sis.Dyn (Db)

/-- **C123** (partial).  For every history of a database, a key and a table with times, of which there was one definition: when
a read of a range returns records, a subscription for the range returns as well, and tells its start, those records in that
order, one by one, each with its time, and its end.  What is missing: keys and tables given by lists or `*`; and that
a start and an end are told when there is no record (`C123_none_partial`). -/
theorem C123_same_partial {lib : Lib} {v : Env} {P : Db → Prop} (ht : lib.trace = false) (L : Restores lib) (T : Readable lib P) (K : Tables P) {d : Disk}
    {a : Sdb.Abs} (h : Hist lib v P d a) {k s : Bytes} (hk : KeyName k) (hs : TabName s) (hks : (42 : UInt8) ∉ k) (hss : (42 : UInt8) ∉ s ∧ (44 : UInt8) ∉ s)
    {db : Db} (hone : ∀ o, a.was (fold s) o → o = db) {f : Dyn.Field} (hf : timeField db = some f)
    {lo hi : Nat} {out : Bytes} (hr : getRows lib v d k s lo hi = some (some out)) (hl : out.length < 2 ^ 31) :
    ∃ n tn, subOne lib v d k s lo hi n = some (.started :: (recordsOf db out).map (fun r => .record k tn ⟨timeOf f r, r⟩) ++ [.stopped], true) ∧ alike tn s := by
  obtain ⟨m, S, h1, h2⟩ := Sdb.hist_rel ht L T K h
  have hC := Sdb.hist_content K h
  have hm := single hk hks hss
  obtain ⟨q, hp, hq, ho⟩ := rows_pb hm (nots_none h1 h2 hC hk hs hone hf) hr
  have hout : out = (q.map Prod.snd).flatten.flatten := by
    split at ho
    · cases ho
    · exact Option.some.inj ho
  cases q with
  | nil => simp at ho
  | cons e q =>
    have good := fun x hx => part_good K h1 h2 hC hk hs hone (Sdb.hist_known ht L T K h) (hq x hx)
    obtain ⟨hP, ⟨sn, t, g1, g2, g3, g4⟩, g5, -⟩ := good e List.mem_cons_self
    have hT := Sdb.timed K hP hf
    obtain ⟨⟨c, nd⟩, bs⟩ := e
    cases bs with
    | nil => exact absurd rfl g5
    | cons b bs =>
      have hB : ∀ x ∈ b :: (bs ++ (q.map Prod.snd).flatten), Whole db x ∧ x.length < 2 ^ 31 := by
        intro x hx
        have hx' : x ∈ ((((c, nd), b :: bs) :: q).map Prod.snd).flatten := hx
        constructor
        · obtain ⟨l, hl, hxl⟩ := List.mem_flatten.1 hx'
          obtain ⟨e, he, rfl⟩ := List.mem_map.1 hl
          exact (good e he).2.2.2 x hxl
        · have := length_le_flatten hx'
          rw [← hout] at this
          omega
      obtain ⟨M, m1, m2, m3⟩ := items_all hT hB
      rw [List.mapM_cons] at m1
      cases hxs : itemsOf db b with
      | none => rw [hxs] at m1; cases m1
      | some xs =>
        rw [hxs] at m1
        cases hms : (bs ++ (q.map Prod.snd).flatten).mapM (itemsOf db) with
        | none => simp only [hms] at m1; cases m1
        | some M' =>
          simp only [hms] at m1
          have m1 : xs :: M' = M := by cases m1; rfl
          subst m1
          have hfl : xs ++ M'.flatten = (recordsOf db out).map fun r => ⟨timeOf f r, r⟩ := by rw [hout]; exact m3
          have hcount : (xs ++ M'.flatten).length < 2 ^ 32 := by
            rw [hfl, List.length_map]
            unfold recordsOf
            rw [Sdb.records_length]
            have := Nat.div_le_self out.length db.size
            omega
          obtain ⟨st, hst⟩ : ∃ st, styleIn db = some st := by
            unfold styleIn
            have := hT.field
            unfold timeField at this
            obtain ⟨x, x1, x2⟩ := Option.bind_eq_some_iff.1 this
            have hu := hT.unit
            rw [x1]
            simp only [x2, Option.bind_some]
            revert hu
            cases f.style <;> first | (intro _; exact ⟨_, rfl⟩) | (intro hu; cases hu)
          obtain ⟨c', n, r, p1, p2, p3⟩ := play_out (v := v) (k := k) (s := s) (tn := t.1.1) (st := st) g3 (by have := hk.len; omega) (by have := hs.len; omega)
            (m2 xs List.mem_cons_self) (fun m hm => m2 m (List.mem_cons_of_mem _ hm)) hcount
          refine ⟨n, t.1.1, ?_, g3⟩
          unfold subOne
          rw [hm]
          simp only [Bool.false_eq_true, if_false, hp, Option.bind_some, List.map_cons, Sdb.short_eq hk hs, divide_node hk.dot]
          unfold play
          simp only at g1 g2
          simp only [g1, g2, g4, hst, (hq _ List.mem_cons_self).blocks, mapM_blocks fun x hx => hq x (List.mem_cons_of_mem _ hx), hxs, hms, p1, p2, Option.bind_some,
            Option.map_some, p3, hfl, List.map_map]
          rfl

/-- **C123** (partial).  When a read of a range returns nothing, a subscription for the range returns and tells no record; it
does not tell a start and an end either. -/
theorem C123_none_partial {lib : Lib} {v : Env} {P : Db → Prop} (ht : lib.trace = false) (L : Restores lib) (T : Readable lib P) (K : Tables P) {d : Disk}
    {a : Sdb.Abs} (h : Hist lib v P d a) {k s : Bytes} (hk : KeyName k) (hs : TabName s) (hks : (42 : UInt8) ∉ k) (hss : (42 : UInt8) ∉ s ∧ (44 : UInt8) ∉ s)
    {db : Db} (hone : ∀ o, a.was (fold s) o → o = db) {f : Dyn.Field} (hf : timeField db = some f)
    {lo hi : Nat} (hr : getRows lib v d k s lo hi = some none) (n : Nat) : subOne lib v d k s lo hi n = some ([], true) := by
  obtain ⟨m, S, h1, h2⟩ := Sdb.hist_rel ht L T K h
  have hC := Sdb.hist_content K h
  have hm := single hk hks hss
  obtain ⟨q, hp, hq, ho⟩ := rows_pb hm (nots_none h1 h2 hC hk hs hone hf) hr
  cases q with
  | nil =>
    unfold subOne
    rw [hm]
    simp only [Bool.false_eq_true, if_false, hp, Option.bind_some, List.map_nil]
  | cons e q =>
    obtain ⟨-, -, g5, g6⟩ := part_good K h1 h2 hC hk hs hone (Sdb.hist_known ht L T K h) (hq e List.mem_cons_self)
    obtain ⟨p, bs⟩ := e
    cases bs with
    | nil => exact absurd rfl g5
    | cons b bs =>
      have := (g6 b List.mem_cons_self).ne
      rw [if_neg (by simp [this])] at ho
      cases ho

section
open Sdb.Sample

private theorem only_day : ∀ o, abs2.was (fold (b "day")) o → o = dayDb := by
  intro o ho
  have : abs2.was (fold (b "day")) = fun x => False ∨ ∃ t ∈ [(⟨b "day", dayDb⟩ : Sdb.Tab), ⟨b "sec", secDb⟩, ⟨b "info", infoDb⟩], fold t.name = fold (b "day") ∧ t.db = x := by
    have e : ∀ (a : Sdb.Abs) (x : Sdb.Act), (∀ ts, x ≠ .tabs ts) → (a.act env x).was = a.was := by
      intro a x hx
      cases x with
      | tabs ts => exact absurd rfl (hx ts)
      | rows k s d => simp only [Sdb.Abs.act]; split <;> rfl
      | _ => rfl
    simp only [abs2, abs1, acts1, acts2, Sdb.Abs.acts, List.foldl_cons, List.foldl_nil]
    rw [e _ (.rows ..) nofun, e _ (.rows ..) nofun, e _ (.one ..) nofun, e _ (.rows ..) nofun, e _ (.rows ..) nofun, e _ (.mul ..) nofun, e _ (.one ..) nofun]
    rfl
  rw [this] at ho
  rcases ho with ho | ⟨t, ht, hn, rfl⟩
  · exact ho.elim
  · simp only [List.mem_cons, List.not_mem_nil, or_false] at ht
    rcases ht with rfl | rfl | rfl
    · rfl
    · exact absurd hn (by decide +kernel)
    · exact absurd hn (by decide +kernel)

/-- The conditions of `C123_same_partial` are met: days of two years in two files. -/
example : Hist (lib false) env (· ∈ dbs) disk2 abs2 ∧ KeyName (b "k1") ∧ TabName (b "day") ∧ timeField dayDb = some dayField ∧
    (∀ o, abs2.was (fold (b "day")) o → o = dayDb) ∧
    getRows (lib false) env disk2 (b "k1") (b "day") 1609000000000 1622900000000 = some (some (dayRow 20201231 1 ++ dayRow 20210104 2 ++ dayRow 20210105 3)) ∧
    subOne (lib false) env disk2 (b "k1") (b "day") 1609000000000 1622900000000 9 = some ([.started, .record (b "k1") (b "day") ⟨20201231, dayRow 20201231 1⟩,
      .record (b "k1") (b "day") ⟨20210104, dayRow 20210104 2⟩, .record (b "k1") (b "day") ⟨20210105, dayRow 20210105 3⟩, .stopped], true) :=
  ⟨hist2, key1, tabDay, dayField_eq, only_day, by decide +kernel, by decide +kernel⟩

/-- **C123** is violated: a subscription to a key that has no record is not told that it started and ended. -/
theorem C123_violated_silent : ∃ d, session (lib false) env {} [.keys (b "a"), .tabs [⟨b "x", dayDb⟩]] = some d ∧
    subOne (lib false) env d (b "a") (b "x") 1622900000000 1623126400000 9 = some ([], true) :=
  ⟨_, run_of (by decide +kernel), by decide +kernel⟩

/-- **C123** is violated: of a key with a dot in its name nothing is told, although a read returns its records. -/
theorem C123_violated_dot : ∃ d, session (lib false) env {} [.keys (b "a.c"), .tabs [⟨b "x", dayDb⟩], .rows (b "a.c") (b "x") (dayRow 20210606 1)] = some d ∧
    getRows (lib false) env d (b "a.c") (b "x") 1622900000000 1623126400000 = some (some (dayRow 20210606 1)) ∧
    subOne (lib false) env d (b "a.c") (b "x") 1622900000000 1623126400000 9 = some ([.started, .stopped], true) :=
  ⟨_, run_of (by decide +kernel), by decide +kernel, by decide +kernel⟩

/-- A day and a number of eight bytes. -/
def wideDb : Db := made [⟨some (b "d"), some .date, 4, 1, false, 0, false⟩, ⟨some (b "v"), some .int, 8, 1, false, 0, false⟩]

/-- **C123** is violated: when a table was given another size, nothing is told of records of both sizes in one file, old or new,
although a read returns them. -/
theorem C123_violated_redefined : ∃ d d', session (lib false) env {} [.keys (b "a"), .tabs [⟨b "x", dayDb⟩], .rows (b "a") (b "x") (dayRow 20210606 1)] = some d ∧
    session (lib false) env d [.tabs [⟨b "x", wideDb⟩], .rows (b "a") (b "x") (dayRow 20210607 2 ++ [0, 0, 0, 0])] = some d' ∧
    getRows (lib false) env d' (b "a") (b "x") 1622900000000 1623126400000 = some (some (dayRow 20210606 1 ++ dayRow 20210607 2 ++ [0, 0, 0, 0])) ∧
    subOne (lib false) env d' (b "a") (b "x") 1622900000000 1623126400000 9 = some ([.started, .stopped], true) :=
  ⟨_, _, run_of (by decide +kernel), run_of (by decide +kernel), by decide +kernel, by decide +kernel⟩

end

end Sis.Mrg
