import Verif.Merge.Play
import Verif.Merge.MergeSpec
import Verif.Sdb.WriterSpec
import Verif.Merge.MergeTheorems
import Verif.Sdb.ReadLemmas
import Verif.Sdb.RowLemmas
import Verif.Sdb.KnownTabs
/- A subscription to one key of one table of a database on disk. -/
namespace Sis.Mrg
open Sis.Time (Style Env convert)
open Sis.Sdb (Lib Disk Uid Ctl Node openRd shortName multiple readSdb getTab)
open Sis.Dyn (Db getN)

theorem convert_self (v : Env) (a : Style) (x : Nat) : convert v a a x = some x := by cases a <;> rfl

theorem filter_told {k tn : Bytes} : ∀ {os : List Out}, .started ∉ os → .stopped ∉ os → (∀ kn sn x, .record kn sn x ∈ os → kn = k ∧ sn = tn) →
    os.filter reported = (records os).map fun r => .record k tn r.2
  | [], _, _, _ => rfl
  | o :: os, h1, h2, h3 => by
    have ih := filter_told (os := os) (fun h => h1 (List.mem_cons_of_mem _ h)) (fun h => h2 (List.mem_cons_of_mem _ h))
      fun kn sn x h => h3 kn sn x (List.mem_cons_of_mem _ h)
    cases o with
    | started => exact absurd List.mem_cons_self h1
    | stopped => exact absurd List.mem_cons_self h2
    | keyStop a b => simpa [List.filter_cons, reported, records] using ih
    | record kn sn x =>
      obtain ⟨rfl, rfl⟩ := h3 kn sn x List.mem_cons_self
      rw [List.filter_cons_of_pos rfl, ih]; rfl

theorem of_all {k tn s : Bytes} (hs : alike tn s) : ∀ {os : List Out}, (∀ kn sn x, .record kn sn x ∈ os → kn = k ∧ sn = tn) →
    of k s os = (records os).map Prod.snd
  | [], _ => rfl
  | o :: os, h => by
    have ih := of_all hs (os := os) fun kn sn x h' => h kn sn x (List.mem_cons_of_mem _ h')
    unfold of at ih
    cases o with
    | started => exact ih
    | stopped => exact ih
    | keyStop a b => exact ih
    | record kn sn x =>
      obtain ⟨rfl, rfl⟩ := h kn sn x List.mem_cons_self
      unfold of
      simp only [records]
      rw [List.filter_cons, if_pos (by simp only [decide_eq_true_eq]; exact ⟨rfl, hs⟩), List.map_cons, List.map_cons, ih]

theorem play_out {v : Env} {k s tn : Bytes} {st : Option Style} {xs : List Item} {M : List (List Item)} (ha : alike tn s) (hk : k.length < 128)
    (hs : s.length < 128) (hx : xs ≠ []) (hM : ∀ m ∈ M, m ≠ []) (hn : (xs ++ M.flatten).length < 2 ^ 32) :
    ∃ c n r, push v (setTab {} tn st) k s xs = some c ∧ start v n { c := c, more := M.map fun m => ((k, s), m) } = some (r, true) ∧
      r.out.filter reported = .started :: (xs ++ M.flatten).map (.record k tn) ++ [.stopped] := by
  have ha' : same tn s = true := by simpa [same, alike] using ha
  have hset : setTab {} tn st = { ({} : Cxt) with tabs := [(tn, st)], scale := st } := by
    cases st <;> rfl
  have hpush : ∃ c, push v (setTab {} tn st) k s xs = some c := by
    rw [hset]
    unfold push
    simp only [place, List.findIdx?_nil]
    rw [if_neg (by omega), List.find?_cons, ha']
    simp only
    unfold put
    have : (xs.mapM fun x => (vtime v st st x).map fun t => (t, x)).isSome := by
      apply mapM_all
      intro x _
      cases st with
      | none => rfl
      | some a => simp [vtime, convert_self]
    obtain ⟨ts, hts⟩ := Option.isSome_iff_exists.1 this
    exact ⟨_, by rw [hts]; rfl⟩
  obtain ⟨c, hc⟩ := hpush
  have hsetup : setup v [.tab tn st, .push k s xs] = some c := by
    unfold setup
    simp only [List.foldlM_cons, List.foldlM_nil, call]
    show (push v (setTab {} tn st) k s xs).bind _ = _
    rw [hc]; rfl
  have hgiven : ∀ kn sn, given kn sn [] [] [.tab tn st, .push k s xs] = if alike k kn ∧ alike s sn then xs else [] := by
    intro kn sn
    simp only [given, List.nil_append, List.mem_singleton, exists_eq_left]
    by_cases h : alike k kn ∧ alike s sn
    · rw [if_pos ⟨h.1, h.2, ha⟩, if_pos h]
    · rw [if_neg (fun g => h ⟨g.1, g.2.1⟩), if_neg h]
  have hcl : countLater (M.map fun m => ((k, s), m)) = M.flatten.length := by
    unfold countLater
    rw [List.map_map, List.length_flatten]
    rfl
  obtain ⟨n, r, h1, ⟨body, h2, h3, h4⟩, h5⟩ := C122_all_partial (more := M.map fun m => ((k, s), m)) hsetup
    (by
      intro m hm
      obtain ⟨m', hm', rfl⟩ := List.mem_map.1 hm
      refine ⟨hM m' hm', ?_⟩
      rw [hgiven, if_pos ⟨rfl, rfl⟩]
      exact hx)
    (by
      intro ta a tb b h1 h2 m _ x _
      simp only [List.mem_cons, Call.tab.injEq, List.not_mem_nil, or_false, reduceCtorEq] at h1 h2
      have : a = b := by
        have := h1.2.trans h2.2.symm
        exact Option.some.inj this
      subst this
      rw [convert_self]; rfl)
    (by rw [hcl]; simp only [count]; rw [List.length_append] at hn; omega)
  obtain ⟨h6, -⟩ := C122_names_partial hsetup h1
  refine ⟨c, n, r, hc, h1, ?_⟩
  have hrec : ∀ kn sn x, .record kn sn x ∈ body → kn = k ∧ sn = tn := by
    intro kn sn x hm
    obtain ⟨⟨s', ys, g1⟩, st', g2⟩ := h6 kn sn x (by rw [h2]; simp [hm])
    simp only [List.mem_cons, Call.push.injEq, Call.tab.injEq, List.not_mem_nil, or_false, reduceCtorEq, false_or] at g1 g2
    exact ⟨g1.1, g2.1⟩
  have h7 := h5 k s
  rw [h2, show Out.started :: body ++ [Out.stopped] = [.started] ++ body ++ [.stopped] from rfl, of_append, of_append, hgiven,
    if_pos ⟨rfl, rfl⟩, of_all ha hrec] at h7
  have e1 : of k s [Out.started] = [] := rfl
  have e2 : of k s [Out.stopped] = [] := rfl
  rw [e1, e2, List.nil_append, List.append_nil] at h7
  have hlater : later k s (M.map fun m => ((k, s), m)) = M.flatten := by
    unfold later
    rw [List.filter_eq_self.2 (by
      intro m hm
      obtain ⟨m', -, rfl⟩ := List.mem_map.1 hm
      simp [alike]), List.flatMap_map]
    exact List.flatMap_id
  rw [hlater] at h7
  rw [h2, show Out.started :: body ++ [Out.stopped] = [.started] ++ body ++ [.stopped] from rfl, List.filter_append, List.filter_append,
    filter_told h3 h4 hrec, ← h7, List.map_map]
  rfl

open Sis.Sdb (catRows rowsIn rowsYears rowsDays getRows recordsOf timeOf timeField fold)

theorem rowsIn_part (lib : Lib) (d : Disk) (k s : Bytes) (u : Uid) : rowsIn lib d k s u = (partIn lib d k s u).bind fun a =>
    match a with
    | none => some none
    | some p => (catRows lib p.1.body p.2.units).map some := by
  unfold rowsIn partIn
  cases openRd lib d u with
  | none => rfl
  | some c =>
    cases c with
    | none => rfl
    | some c => simp only [Option.bind_some, Option.map_some]; cases getN c.idx (shortName k (some s)) <;> rfl

theorem cat_blocks {lib : Lib} {body : Bytes} : ∀ {us : List Sdb.IUnit} {m : Bytes}, catRows lib body us = some m →
    ∃ bs, us.mapM (fun u => (readSdb lib body u.offset u.size).map (·.2)) = some bs ∧ m = bs.flatten
  | [], m, h => by cases h; exact ⟨[], rfl, rfl⟩
  | u :: us, m, h => by
    simp only [catRows] at h
    cases hr : readSdb lib body u.offset u.size with
    | none => rw [hr] at h; cases h
    | some x =>
      rw [hr] at h
      simp only [Option.bind_some] at h
      cases hc : catRows lib body us with
      | none => rw [hc] at h; cases h
      | some y =>
        rw [hc] at h
        cases h
        obtain ⟨bs, h1, h2⟩ := cat_blocks hc
        refine ⟨x.2 :: bs, ?_, ?_⟩
        · rw [List.mapM_cons, hr]
          simp only [h1]; rfl
        · rw [h2]; rfl

/-- A file that has the key, its blocks, and the name of the file. -/
structure PB (lib : Lib) (d : Disk) (k s : Bytes) (e : (Ctl × Node) × List Bytes) : Prop where
  part : ∃ u, u ≠ .nots ∧ partIn lib d k s u = some (some e.1)
  blocks : blocksOf lib e.1 = some e.2

theorem part_pb {lib : Lib} {d : Disk} {k s : Bytes} {u : Uid} (hu : u ≠ .nots) {a : Option Bytes} (h : rowsIn lib d k s u = some a) :
    ∃ q : List ((Ctl × Node) × List Bytes), (partIn lib d k s u).map Option.toList = some (q.map Prod.fst) ∧ a.toList = q.map (fun e => e.2.flatten) ∧
      ∀ e ∈ q, PB lib d k s e := by
  rw [rowsIn_part] at h
  cases hp : partIn lib d k s u with
  | none => rw [hp] at h; cases h
  | some o =>
    rw [hp] at h
    cases o with
    | none => cases h; exact ⟨[], rfl, rfl, nofun⟩
    | some p =>
      simp only [Option.bind_some] at h
      cases hc : catRows lib p.1.body p.2.units with
      | none => rw [hc] at h; cases h
      | some m =>
        rw [hc] at h
        cases h
        obtain ⟨bs, h1, h2⟩ := cat_blocks hc
        refine ⟨[(p, bs)], rfl, by simp [h2], ?_⟩
        intro e he
        rw [List.mem_singleton.1 he]
        exact ⟨⟨u, hu, hp⟩, h1⟩

theorem years_pb {lib : Lib} {d : Disk} {k s : Bytes} : ∀ {n y : Nat} {l : List Bytes}, rowsYears lib d k s n y = some l →
    ∃ q : List ((Ctl × Node) × List Bytes), partYears lib d k s n y = some (q.map Prod.fst) ∧ l = q.map (fun e => e.2.flatten) ∧ ∀ e ∈ q, PB lib d k s e
  | 0, y, l, h => by cases h; exact ⟨[], rfl, rfl, nofun⟩
  | n + 1, y, l, h => by
    simp only [rowsYears] at h
    obtain ⟨a, h1, h⟩ := Option.bind_eq_some_iff.1 h
    obtain ⟨l', h2, rfl⟩ := Option.map_eq_some_iff.1 h
    obtain ⟨q, g1, g2, g3⟩ := part_pb (by simp) h1
    obtain ⟨q', g4, rfl, g6⟩ := years_pb h2
    obtain ⟨o, g7, g8⟩ := Option.map_eq_some_iff.1 g1
    refine ⟨q ++ q', ?_, by rw [g2, List.map_append], ?_⟩
    · simp only [partYears, g7, Option.bind_some, g4, Option.map_some, g8, List.map_append]
    · intro e he
      rcases List.mem_append.1 he with he | he
      · exact g3 e he
      · exact g6 e he

theorem days_pb {lib : Lib} {v : Env} {d : Disk} {k s : Bytes} {stop : Nat} : ∀ {n day : Nat} {l : List Bytes}, rowsDays lib v d k s stop n day = some l →
    ∃ q : List ((Ctl × Node) × List Bytes), partDays lib v d k s stop n day = some (q.map Prod.fst) ∧ l = q.map (fun e => e.2.flatten) ∧ ∀ e ∈ q, PB lib d k s e
  | 0, day, l, h => by cases h; exact ⟨[], rfl, rfl, nofun⟩
  | n + 1, day, l, h => by
    simp only [rowsDays] at h
    by_cases hd : day ≤ stop
    · rw [if_pos hd] at h
      obtain ⟨a, h1, h⟩ := Option.bind_eq_some_iff.1 h
      obtain ⟨day', h0, h⟩ := Option.bind_eq_some_iff.1 h
      obtain ⟨l', h2, rfl⟩ := Option.map_eq_some_iff.1 h
      obtain ⟨q, g1, g2, g3⟩ := part_pb (by simp) h1
      obtain ⟨q', g4, rfl, g6⟩ := days_pb h2
      obtain ⟨o, g7, g8⟩ := Option.map_eq_some_iff.1 g1
      refine ⟨q ++ q', ?_, by rw [g2, List.map_append], ?_⟩
      · simp only [partDays, if_pos hd, g7, h0, Option.bind_some, g4, Option.map_some, g8, List.map_append]
      · intro e he
        rcases List.mem_append.1 he with he | he
        · exact g3 e he
        · exact g6 e he
    · rw [if_neg hd] at h
      cases h
      exact ⟨[], by simp only [partDays, if_neg hd]; rfl, rfl, nofun⟩

theorem rows_pb {lib : Lib} {v : Env} {d : Disk} {k s : Bytes} {lo hi : Nat} {o : Option Bytes} (hm : (multiple k || multiple s) = false)
    (hn : partIn lib d k s .nots = some none) (h : getRows lib v d k s lo hi = some o) :
    ∃ q : List ((Ctl × Node) × List Bytes), parts lib v d k s lo hi = some (q.map Prod.fst) ∧ (∀ e ∈ q, PB lib d k s e) ∧
      o = if (q.map Prod.snd).flatten.flatten = [] then none else some (q.map Prod.snd).flatten.flatten := by
  have hr : rowsIn lib d k s .nots = some none := by rw [rowsIn_part, hn]; rfl
  unfold getRows at h
  rw [hm, hr] at h
  simp only [Bool.false_eq_true, if_false, Option.bind_some] at h
  obtain ⟨l, h0, ho⟩ := Option.map_eq_some_iff.1 h
  subst ho
  clear h
  obtain ⟨a, ha, h1⟩ := Option.bind_eq_some_iff.1 h0
  obtain ⟨b, hb, h2⟩ := Option.bind_eq_some_iff.1 h1
  obtain ⟨ys, hy, h⟩ := Option.bind_eq_some_iff.1 h2
  obtain ⟨q, g1, g2, g3⟩ := years_pb hy
  have fin : ∀ q : List ((Ctl × Node) × List Bytes), (q.map fun e => e.2.flatten).flatten = (q.map Prod.snd).flatten.flatten := by
    intro q
    induction q with
    | nil => rfl
    | cons e q ih => simp [ih]
  unfold parts
  simp only [hn, Option.bind_some, ha, hb, g1]
  clear h0 h1 h2
  by_cases he : ys = []
  · have hq : q = [] := by rw [he] at g2; simpa using g2.symm
    rw [if_neg (by simp [he])] at h
    obtain ⟨q', k1, k2, k3⟩ := days_pb h
    refine ⟨q', by rw [if_neg (by simp [hq]), k1], k3, ?_⟩
    rw [k2, fin]
  · rw [if_pos he] at h
    cases h
    refine ⟨q, by rw [if_pos (by rintro hx; apply he; rw [g2]; simpa using hx)], g3, ?_⟩
    rw [g2, fin]

/-- What the blocks of a table with times are made of. -/
structure Whole (db : Db) (b : Bytes) : Prop where
  ne : b ≠ []
  size : b.length % db.size = 0

theorem items_block {db : Db} {f : Dyn.Field} (h : Sdb.Timed db f) {b : Bytes} (hb : Whole db b) (hl : b.length < 2 ^ 31) :
    itemsOf db b = some ((recordsOf db b).map fun r => ⟨timeOf f r, r⟩) := by
  unfold itemsOf
  rw [if_neg (by have := h.size; omega)]
  have hlen : (recordsOf db b).length = b.length / db.size := by unfold recordsOf; rw [Sdb.records_length]
  have key : ∀ (is : List Nat), (∀ i ∈ is, i < b.length / db.size) → is.mapM (fun i => (Dyn.getTime db i b).map fun t => (⟨t, (b.drop (i * db.size)).take db.size⟩ : Item)) =
      some (is.map fun i => ⟨timeOf f ((recordsOf db b).getD i []), (recordsOf db b).getD i []⟩) := by
    intro is
    induction is with
    | nil => intro _; rfl
    | cons i is ih =>
      intro hi
      have h0 := hi i List.mem_cons_self
      have hget : (recordsOf db b)[i]? = some ((b.drop (i * db.size)).take db.size) := by
        unfold recordsOf
        rw [Sdb.records_get _ _ _ _ h0]
      rw [List.mapM_cons, Sdb.getTime_rec h hb.size hl hget, ih fun j hj => hi j (List.mem_cons_of_mem _ hj)]
      simp only [List.getD, hget, List.map_cons]
      rfl
  rw [key _ (fun i hi => List.mem_range.1 hi)]
  congr 1
  apply List.ext_getElem?
  intro i
  rw [List.getElem?_map, List.getElem?_map]
  by_cases hi : i < b.length / db.size
  · rw [List.getElem?_range hi]
    have : i < (recordsOf db b).length := by omega
    simp [List.getD, List.getElem?_eq_getElem this]
  · rw [List.getElem?_eq_none (by simp; omega), List.getElem?_eq_none (by omega)]
    rfl

theorem whole_records {db : Db} (hz : 0 < db.size) {b : Bytes} (hb : Whole db b) : recordsOf db b ≠ [] ∧ (recordsOf db b).flatten = b ∧ ∀ r ∈ recordsOf db b, r.length = db.size := by
  have h1 := Sdb.records_flatten db.size hz (b.length / db.size) b (by
    have := Nat.div_add_mod b.length db.size
    rw [hb.size, Nat.add_zero, Nat.mul_comm] at this
    exact this.symm)
  refine ⟨?_, h1⟩
  intro he
  have h2 := h1.1
  unfold recordsOf at he
  rw [he] at h2
  exact hb.ne h2.symm

theorem items_all {db : Db} {f : Dyn.Field} (h : Sdb.Timed db f) : ∀ {B : List Bytes}, (∀ b ∈ B, Whole db b ∧ b.length < 2 ^ 31) →
    ∃ M : List (List Item), B.mapM (itemsOf db) = some M ∧ (∀ m ∈ M, m ≠ []) ∧ M.flatten = (recordsOf db B.flatten).map fun r => ⟨timeOf f r, r⟩ := by
  intro B hB
  have hrec : recordsOf db B.flatten = (B.map (recordsOf db)).flatten := by
    have e : B.flatten = (B.map (recordsOf db)).flatten.flatten := by
      induction B with
      | nil => rfl
      | cons b B ih =>
        rw [List.flatten_cons, List.map_cons, List.flatten_cons, List.flatten_append, (whole_records h.size (hB b List.mem_cons_self).1).2.1,
          ih fun x hx => hB x (List.mem_cons_of_mem _ hx)]
    rw [e]
    apply Sdb.recordsOf_flatten h.size
    intro r hr
    obtain ⟨l, hl, hr⟩ := List.mem_flatten.1 hr
    obtain ⟨b, hb, rfl⟩ := List.mem_map.1 hl
    exact (whole_records h.size (hB b hb).1).2.2 r hr
  refine ⟨B.map fun b => (recordsOf db b).map fun r => ⟨timeOf f r, r⟩, ?_, ?_, ?_⟩
  · clear hrec
    induction B with
    | nil => rfl
    | cons b B ih =>
      obtain ⟨h1, h2⟩ := hB b List.mem_cons_self
      rw [List.mapM_cons, items_block h h1 h2, ih fun x hx => hB x (List.mem_cons_of_mem _ hx)]
      rfl
  · intro m hm
    obtain ⟨b, hb, rfl⟩ := List.mem_map.1 hm
    intro he
    exact (whole_records h.size (hB b hb).1).1 (by simpa using he)
  · rw [hrec, List.map_flatten, List.map_map]
    rfl

open Sis.Sdb (nodeName KeyName TabName Tables DiskOk Rel Content)

theorem units_blocks {lib : Lib} {body : Bytes} {u : Uid} : ∀ {l : List (Nat × Nat × Bytes)} {us : List Sdb.IUnit},
    us.map (fun u => (u.start, u.stop, readSdb lib body u.offset u.size)) = Sdb.rowBlocks u l →
    us.mapM (fun u => (readSdb lib body u.offset u.size).map (·.2)) = some (l.map fun b => b.2.2)
  | [], us, h => by
    have : us = [] := by simpa [Sdb.rowBlocks] using h
    subst this; rfl
  | b :: l, [], h => by cases h
  | b :: l, x :: us, h => by
    simp only [Sdb.rowBlocks, List.map_cons, List.cons.injEq, Prod.mk.injEq] at h
    rw [List.mapM_cons, h.1.2.2, units_blocks (l := l) (us := us) h.2]
    rfl

theorem nots_none {lib : Lib} {v : Env} {P : Db → Prop} {d : Disk} {m : Ctl} {S : Sdb.Store} {a : Sdb.Abs} (h : DiskOk lib P d m S) (r : Rel P a S m)
    (hC : Content v P a) {k s : Bytes} (hk : KeyName k) (hs : TabName s) {db : Db} (hone : ∀ o, a.was (fold s) o → o = db) {f : Dyn.Field}
    (hf : timeField db = some f) : partIn lib d k s .nots = some none := by
  have h1 := Sdb.rowsIn_eq h r hk hs .nots
  have h2 : a.rows (fold k) (fold s) .nots = none := by
    cases hr : a.rows (fold k) (fold s) .nots with
    | none => rfl
    | some l =>
      obtain ⟨o, g1, g2⟩ := hC.nots _ _ _ hr
      rw [hone o g1, hf] at g2
      cases g2
  rw [h2, rowsIn_part] at h1
  cases hp : partIn lib d k s .nots with
  | none => rw [hp] at h1; cases h1
  | some o =>
    rw [hp] at h1
    cases o with
    | none => rfl
    | some p =>
      simp only [Option.bind_some] at h1
      obtain ⟨x, -, hx⟩ := Option.map_eq_some_iff.1 h1
      cases hx

theorem part_good {lib : Lib} {v : Env} {P : Db → Prop} (K : Tables P) {d : Disk} {m : Ctl} {S : Sdb.Store} {a : Sdb.Abs} (h : DiskOk lib P d m S) (r : Rel P a S m)
    (hC : Content v P a) {k s : Bytes} (hk : KeyName k) (hs : TabName s) {db : Db} (hone : ∀ o, a.was (fold s) o → o = db)
    (hfile : ∀ u f c, d.unit u = some f → Sdb.openUnit lib u.kind f = some c → Sdb.SdIn a.was c.sd) {e : (Ctl × Node) × List Bytes} (he : PB lib d k s e) :
    P db ∧ (∃ sn t, e.1.2.sname = some sn ∧ getTab e.1.1.sd sn = some t ∧ alike t.1.1 s ∧ t.1.2.getLast? = some db) ∧ e.2 ≠ [] ∧ ∀ b ∈ e.2, Whole db b := by
  obtain ⟨u, hu, hp⟩ := he.part
  unfold partIn openRd at hp
  cases hd : d.unit u with
  | none => rw [hd] at hp; cases hp
  | some fl =>
    rw [hd] at hp
    obtain ⟨-, c, h1, h2, h3⟩ := h.files.disk u fl hd
    simp only [h1, Option.map_some, Option.bind_some, Sdb.short_eq hk hs] at hp
    obtain ⟨nd, hn, hp⟩ := Option.map_eq_some_iff.1 (Option.some.inj hp)
    have hv := h3 (by simp) _ (Sdb.isData_node k s)
    rw [r.rows k s u hk.dot] at hv
    unfold Sdb.view at hv
    rw [hn, Option.map_some] at hv
    cases hr : a.rows (fold k) (fold s) u with
    | none => rw [hr] at hv; cases hv
    | some l =>
      rw [hr] at hv
      have hb := units_blocks (Option.some.inj hv)
      have he2 := he.blocks
      rw [← hp] at he2 ⊢
      unfold blocksOf at he2
      simp only [hb, Option.some.injEq] at he2
      obtain ⟨hl, hm⟩ := hC.rows _ _ _ _ hu hr
      have hP : P db := by
        cases l with
        | nil => exact absurd rfl hl
        | cons o l =>
          obtain ⟨o', _, _, g1, -, -⟩ := hm o List.mem_cons_self
          rw [← hone o' g1]
          exact hC.was _ _ g1
      refine ⟨hP, ?_, ?_, ?_⟩
      · obtain ⟨i, x, g1, g2, g3⟩ := Dyn.getN_some hn
        have hmem := List.mem_of_getElem? g1
        have hx : x ∈ Sdb.data c.idx := by
          refine List.mem_filter.2 ⟨hmem, ?_⟩
          have k1 : Dyn.sameN Sdb.signKeys x.1 = false := by
            have := (Sdb.isData_node k s).1
            rw [← Bool.not_eq_true, Dyn.sameN_iff] at this ⊢
            rw [← Dyn.sameN_iff.1 g3]; exact this
          have k2 : Dyn.sameN Sdb.signTabs x.1 = false := by
            have := (Sdb.isData_node k s).2
            rw [← Bool.not_eq_true, Dyn.sameN_iff] at this ⊢
            rw [← Dyn.sameN_iff.1 g3]; exact this
          rw [k1, k2]; rfl
        obtain ⟨k', s', hN⟩ := h2.inv.nodes x hx
        have hgk := h2.inv.knames k' hN.key
        cases s' with
        | none =>
          have := hN.name
          rw [this] at g3
          have hf := Sdb.node_key (k := k') (k' := k) (s := s) hgk.dot
          rw [show nodeName k' none = k' from rfl, hf] at g3
          cases g3
        | some t =>
          have hname := hN.name
          rw [hname] at g3
          have hst := ((Sdb.node_same hk.dot hgk.dot).1 g3).2
          obtain ⟨dbs, ht⟩ := hN.tab t rfl
          have hsn : nd.sname = some t := by rw [← g2]; exact hN.sname
          cases hg : getTab c.sd t with
          | none =>
            unfold getTab at hg
            rw [List.find?_eq_none] at hg
            obtain ⟨j, hj⟩ := List.mem_iff_getElem?.1 ht
            have hmz : ((t, dbs), j) ∈ c.sd.zipIdx := by
              rw [List.mem_zipIdx_iff_getElem?]; exact hj
            exact absurd (Dyn.sameN_refl t) (hg _ hmz)
          | some w =>
            refine ⟨t, w, hsn, hg, ?_, ?_⟩
            · unfold getTab at hg
              have := List.find?_some (p := fun e : (Bytes × List Db) × Nat => Dyn.sameN t e.1.1) hg
              have := Dyn.sameN_iff.1 this
              unfold alike
              unfold fold at hst
              rw [← this, hst]
            · have hgn : getN c.sd s = some w.1.2 := by
                rw [Dyn.getN_congr (b := t) c.sd (Dyn.sameN_iff.2 hst)]
                unfold getTab at hg
                unfold getN
                have : (c.sd.zipIdx.find? fun e => Dyn.sameN t e.1.1).map (·.1) = c.sd.find? fun e => Dyn.sameN t e.1 := by
                  have gen : ∀ (l : List (Bytes × List Db)) (n : Nat), ((l.zipIdx n).find? fun e => Dyn.sameN t e.1.1).map (·.1) = l.find? fun e => Dyn.sameN t e.1 := by
                    intro l
                    induction l with
                    | nil => intro n; rfl
                    | cons y l ih =>
                      intro n
                      rw [List.zipIdx_cons, List.find?_cons, List.find?_cons]
                      cases Dyn.sameN t y.1 with
                      | true => rfl
                      | false => exact ih (n + 1)
                  exact gen c.sd 0
                rw [← this, hg]; rfl
              have hw : w.1.2 ≠ [] := by
                obtain ⟨_, y, y1, y2, _⟩ := Dyn.getN_some hgn
                rw [← y2]
                exact (h2.inv.snames y (List.mem_of_getElem? y1)).2
              cases hlast : w.1.2.getLast? with
              | none => exact absurd (List.getLast?_eq_none_iff.1 hlast) hw
              | some o =>
                obtain ⟨_, y, y1, y2, y3⟩ := Dyn.getN_some hgn
                have hy := hfile u fl c hd h1 y (List.mem_of_getElem? y1) o (by rw [y2]; exact List.mem_of_getLast? hlast)
                have hfy : fold y.1 = fold s := by
                  unfold fold
                  exact (Dyn.sameN_iff.1 y3).symm
                rw [hfy] at hy
                rw [hone o hy]
      · rw [← he2]
        intro hx
        exact hl (by simpa using hx)
      · rw [← he2]
        intro b hb
        obtain ⟨o, ho, rfl⟩ := List.mem_map.1 hb
        obtain ⟨o', f', rs, g1, g2, g3⟩ := hm o ho
        rw [hone o' g1] at g3
        obtain ⟨x, hx, -⟩ := g3.first
        have hlen := Sdb.flatten_length db.size rs g3.len
        rw [← g3.bytes] at hlen
        refine ⟨?_, by rw [hlen, Nat.mul_mod_left]⟩
        intro h0
        rw [h0] at hlen
        cases rs with
        | nil => cases hx
        | cons y rs =>
          have hz := (K.size db hP).1
          rw [List.length_nil, List.length_cons, Nat.succ_mul] at hlen
          omega

theorem divide_node {k s : Bytes} (hk : (46 : UInt8) ∉ k) : divide (nodeName k (some s)) = (k, s) := by
  unfold divide nodeName
  have h1 : ∀ x ∈ k, decide (x ≠ 46) = true := by
    intro x hx
    simp only [decide_eq_true_eq]
    rintro rfl
    exact hk hx
  rw [List.takeWhile_append_of_pos h1, List.dropWhile_append_of_pos h1]
  simp

theorem mapM_blocks {lib : Lib} {d : Disk} {k s : Bytes} : ∀ {q : List ((Ctl × Node) × List Bytes)}, (∀ e ∈ q, PB lib d k s e) →
    (q.map Prod.fst).mapM (blocksOf lib) = some (q.map Prod.snd)
  | [], _ => rfl
  | e :: q, h => by
    rw [List.map_cons, List.mapM_cons, (h e List.mem_cons_self).blocks, mapM_blocks fun x hx => h x (List.mem_cons_of_mem _ hx)]
    rfl

theorem length_le_flatten {b : Bytes} : ∀ {B : List Bytes}, b ∈ B → b.length ≤ B.flatten.length
  | [], h => by cases h
  | x :: B, h => by
    rw [List.flatten_cons, List.length_append]
    rcases List.mem_cons.1 h with rfl | h
    · omega
    · have := length_le_flatten h
      omega

theorem single {k s : Bytes} (hk : KeyName k) (hks : (42 : UInt8) ∉ k) (hss : (42 : UInt8) ∉ s ∧ (44 : UInt8) ∉ s) : (Sdb.multiple k || Sdb.multiple s) = false := by
  have h44 := hk.comma
  simp only [Sdb.multiple, Bool.or_eq_false_iff, List.any_eq_false]
  refine ⟨fun c hc => ?_, fun c hc => ?_⟩
  · simp only [Bool.or_eq_true, beq_iff_eq]; rintro (rfl | rfl)
    · exact hks hc
    · exact h44 hc
  · simp only [Bool.or_eq_true, beq_iff_eq]; rintro (rfl | rfl)
    · exact hss.1 hc
    · exact hss.2 hc

end Sis.Mrg
