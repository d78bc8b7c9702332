import Verif.Snodb.WsnoDay
/-
C119: what the file of a day holds of the records that came.
-/
namespace Sis.Wsno
open Sis
open Sis.Sdb (Tab fold)
open Sis.Zip (SameRec)

/-- C119: the compressor of a day takes all that comes, whatever it is, and its end. -/
theorem C119_compressed_partial {e : Env} {ks : List Bytes} {ts : List Tab} {K T : Bytes} (h : Dict e ks ts K T) {ins : List In} (hp : ∀ x ∈ ins, Proper x) (hT : Tame ts (recs ks.length ts ins)) :
    ∃ i0 bs i last, zipOpen e K T = some i0 ∧ zipRun i0 ins = some (bs, i) ∧ zipStop i = some last := by
  obtain ⟨i0, bs, i, last, h1, h2, h3, -⟩ := run_defined h hp hT
  exact ⟨i0, bs, i, last, h1, h2, h3⟩

/-- C119: the log of a day, with one section for each time the process ran on that day, each with the same keys and tables and the first packets of what came at
that time, is made into a file with exactly the first records of each of these times: all of them if all packets are there, and those before a pause if
the packets up to that pause are there.  The worker can do the next day then.  Missing: tables with floating point numbers or large records, records that
cannot be compressed, see C09, and what the theorems below show. -/
theorem C119_day_partial {e : Env} {ks : List Bytes} {ts : List Tab} {K T : Bytes} (h : Dict e ks ts K T) (hf : ∀ n, (e.fresh n).length = n)
    {secs : List (List In × List Bytes)} (hp : ∀ x ∈ secs, ∀ y ∈ x.1, Proper y) (hT : ∀ x ∈ secs, Tame ts (recs ks.length ts x.1)) (hl : ∀ x ∈ secs, Logged e K T x.1 x.2)
    (hs : ∃ x ∈ secs, x.2 ≠ []) {w : W} (hw : w.writer = .null) (hi : w.status = .none ∨ w.status = .init) (day : Nat) :
    ∃ ns ps w', List.Forall₂ (fun x n => Kept e K T ks.length ts x.1 x.2 n) secs ns ∧ toSno e w day true (secs.flatMap fun x => .keys K :: .sdbs T :: x.2.map .zpub) = some w' ∧
      w'.files = w.files ++ [(day, (fileOf ks ts ps).map Sno.Act.cmd)] ∧ w'.writer = .null ∧ w'.status = .init ∧
      Stored ks ts (List.zipWith (fun x n => (recs ks.length ts x.1).take n) secs ns).flatten ps := by
  obtain ⟨d0, d1, fr, hu, hr, hun⟩ := unzip_opened h hf
  have hpos : ∀ t ∈ ts, 0 < t.db.size := fun t ht => (h.fits t ht).pos
  obtain ⟨ns, puts, d2, q1, q2, q3⟩ := secs_read (e := e) (K := K) (T := T) hpos (u := ⟨ks.map fun k => (k, k), ts.map fun t => (t.name, t), d1, 0⟩) rfl rfl (day := day) (files := w.files) (secs := secs)
    (fun x hx => ⟨recs_known _ _ _ (hp x hx), fun d hd => run_held h (hp x hx) (hT x hx) (hl x hx) hd⟩) (cs := [.keys K, .tabs (e.tabs T), .start]) (dec_start hr hun)
  refine ⟨ns, puts, ⟨.init, none, none, none, .null, w.files ++ [(day, (fileOf ks ts puts).map Sno.Act.cmd)]⟩, q1, ?_, rfl, rfl, rfl, q2⟩
  unfold toSno
  rw [if_neg (by rcases hi with hi | hi <;> rw [hi] <;> simp), calls_log, List.cons_append, run_cons]
  have hstart : step e { w with status := .init } (.start day true) = some ⟨.opened, none, none, none, .on day [], w.files⟩ := by
    simp [step, stopFile, hw]
  rw [hstart, Option.bind_some, run_append]
  obtain ⟨x, xs, rfl⟩ : ∃ x xs, secs = x :: xs := by
    obtain ⟨x, hx, -⟩ := hs
    cases secs with
    | nil => cases hx
    | cons a l => exact ⟨a, l, rfl⟩
  have hopen : run e ⟨.opened, none, none, none, .on day [], w.files⟩ ((x :: xs).flatMap fun x => .keys K :: .sdbs T :: x.2.map .incr) =
      run e (openedW K T day w.files) ((x :: xs).flatMap fun x => .keys K :: .sdbs T :: x.2.map .incr) := by
    rw [List.flatMap_cons, List.cons_append, List.cons_append, run_cons, run_cons]
    show run e ⟨.opened, some K, none, none, .on day [], w.files⟩ (.sdbs T :: _) = run e (openedW K T day w.files) (.sdbs T :: _)
    rw [run_cons, run_cons]
    rfl
  rw [hopen, opened_run hu (by
    intro c hc
    obtain ⟨y, _, hc⟩ := List.mem_flatMap.1 hc
    rcases List.mem_cons.1 hc with rfl | hc
    · exact .inl rfl
    rcases List.mem_cons.1 hc with rfl | hc
    · exact .inr (.inl rfl)
    · obtain ⟨b, _, rfl⟩ := List.mem_map.1 hc
      exact .inr (.inr ⟨b, rfl⟩)) (mem_log hs), q3, Option.bind_some]
  have hfile : (fileOf ks ts puts).map Sno.Act.cmd = [.keys K, .tabs ts, .start] ++ (puts.map fun r => .put r.key r.tab r.data) ++ [.stop] := by
    unfold fileOf
    rw [List.map_append, List.map_append, List.map_map, h.keys]
    rfl
  rw [h.tabs, hfile]
  rfl

/-- C119: who subscribes to all of the file gets these records, in order. -/
theorem C119_read_partial {e : Env} {ks : List Bytes} {ts : List Tab} {K T : Bytes} (h : Dict e ks ts K T) {rs : List Zip.Rec} {ps : List Sno.Rec}
    (hst : Stored ks ts rs ps) {lib : Sdb.Lib} {v : Time.Env} {P : Dyn.Db → Prop} {limit : Nat} {file : Bytes × Bytes} (L : Sdb.Restores lib) (R : Sdb.Readable lib P)
    (hs : Sno.Session lib v P limit none {} (fileOf ks ts ps) file) (hsm : Disk.Smooth file.1) :
    Sno.play lib file none none (fun _ => false) = some (ps, false) := by
  have hps : ∀ p ∈ ps, p.key ∈ ks ∧ ∃ t ∈ ts, p.tab = t.name ∧ p.data.length = t.db.size := by
    intro p hp
    obtain ⟨i, hi, rfl⟩ := List.getElem_of_mem hp
    have hi' : i < rs.length := by rw [← hst.1]; exact hi
    obtain ⟨n, t, r', e1, e2, e3, e4, -⟩ := hst.2 i rs[i].1 rs[i].2.1 rs[i].2.2 (List.getElem?_eq_getElem hi')
    rw [List.getElem?_eq_getElem hi, Option.some.injEq] at e3
    rw [e3]
    exact ⟨List.mem_of_getElem? e1, t, List.mem_of_getElem? e2, rfl, e4⟩
  have h2 := puts_acts h.apart h.tapart (fun t ht => (h.fits t ht).pos) (old := []) hps
  have hacts : (({} : Sno.Abs).acts (fileOf ks ts ps)).recs = ps := by
    unfold Sno.Abs.acts at h2 ⊢
    unfold fileOf
    rw [List.foldl_append, List.foldl_append]
    have hk : ks.foldl Sno.addName [] = ks := by simpa using addNames ks [] h.apart (by simp)
    have ht : ts.foldl Sno.addTable [] = ts.map fun t => (t.name, t.db.size) := by simpa using addTabs ts [] h.tapart (by simp)
    have h0 : List.foldl Sno.Abs.act {} [.keys ks, .tabs ts, .start] = ⟨ks, ts.map fun t => (t.name, t.db.size), [], true⟩ := by
      simp only [List.foldl_cons, List.foldl_nil, Sno.Abs.act]
      rw [hk, ht]
    rw [h0, h2]
    simp [Sno.Abs.act]
  obtain ⟨got, broke, g1, g2⟩ := Sno.C83_all_partial L R (.session .new hs) hsm (keys := none) (sdbs := none) rfl rfl (fun _ => false)
  have hb : broke = false := g2.told
  subst hb
  have hg := g2.all rfl
  rw [hacts] at hg
  subst hg
  exact g1

/-! ### An example -/

/-- One table `v` of a number. -/
def one : Tab := ⟨[118], Zip.byteTab⟩

/-- The text `[118]` describes it. -/
def sample : Env := ⟨fun t => if t = [118] then [one] else [], fun n => List.replicate n 7⟩

theorem sample_fit : ∀ t ∈ [one], Fit t.db := by
  intro t ht
  rw [List.mem_singleton.1 ht]
  exact ⟨Zip.byteTab_plain, by decide, by decide, by decide⟩

theorem sample_dict {ks : List Bytes} {K : Bytes} (hK : K = List.intercalate [44] ks) (hn : ∀ k ∈ ks, Sdb.KeyName k) (ha : ks.Pairwise fun a b => fold a ≠ fold b) (h0 : ks ≠ []) (hl : ks.length < 2 ^ 30) :
    Dict sample ks [one] K [118] :=
  ⟨hK, hn, ha, h0, rfl, by simp, by simp, sample_fit, by show ks.length * 2 < _; omega, by omega⟩

theorem sample_tame (rs : List Zip.Rec) : Tame [one] rs := by
  refine ⟨?_, ?_⟩
  · intro k s r t hr ht
    have : t = one := List.mem_singleton.1 (List.mem_of_getElem? ht)
    subst this
    exact Zip.byteTab_opens r
  · intro a b c k s x y t _ _ ht
    have : t = one := List.mem_singleton.1 (List.mem_of_getElem? ht)
    subst this
    exact (Zip.byteTab_linked [y] x).1

/-- Keys `a` and `b`, records with a pause, a crash before the last of them got into a packet, and a record to an orderly end. -/
def sampleSecs : List (List In × List Bytes) :=
  [([.record 0 0 [5, 7], .record 1 0 [9], .idle, .record 1 0 [8]], [[128, 0, 20, 176, 0, 5, 16, 16, 1, 82, 3]]), ([.record 1 0 [3]], [[129, 0, 20, 96, 1]])]

theorem key97 : Sdb.KeyName [97] := Sdb.Sample.key_of (by decide +kernel)
theorem key98 : Sdb.KeyName [98] := Sdb.Sample.key_of (by decide +kernel)

theorem logged_of {e : Env} {K T : Bytes} {ins : List In} {p bs last : List Bytes} (h : ((zipOpen e K T).bind fun i => (zipRun i ins).bind fun r => (zipStop r.2).map fun l => (r.1, l)) = some (bs, last))
    (hp : p <+: bs ++ last) : Logged e K T ins p := by
  simp only [Option.bind_eq_some_iff, Option.map_eq_some_iff] at h
  obtain ⟨i0, h1, ⟨b, i⟩, h2, l, h3, h4⟩ := h
  cases h4
  exact ⟨i0, _, i, _, h1, h2, h3, hp⟩

example : Dict sample [[97], [98]] [one] [97, 44, 98] [118] ∧ (∀ n, (sample.fresh n).length = n) ∧ (∀ x ∈ sampleSecs, ∀ y ∈ x.1, Proper y) ∧
    (∀ x ∈ sampleSecs, Tame [one] (recs 2 [one] x.1)) ∧ (∀ x ∈ sampleSecs, Logged sample [97, 44, 98] [118] x.1 x.2) ∧ (∃ x ∈ sampleSecs, x.2 ≠ []) ∧ ({} : W).writer = .null ∧
    sampleSecs.map (fun x => recs 2 [one] x.1) = [[(0, 0, [5]), (0, 0, [7]), (1, 0, [9]), (1, 0, [8])], [(1, 0, [3])]] := by
  refine ⟨sample_dict rfl ?_ (by decide) (by decide) (by decide), by simp [sample], ?_, fun x _ => sample_tame _, ?_, ⟨_, List.mem_cons_self .., by decide⟩, rfl, by decide +kernel⟩
  · intro k hk
    simp only [List.mem_cons, List.not_mem_nil, or_false] at hk
    rcases hk with rfl | rfl
    · exact key97
    · exact key98
  · intro x hx y hy
    simp only [sampleSecs, List.mem_cons, List.not_mem_nil, or_false] at hx
    rcases hx with rfl | rfl
    · simp only [List.mem_cons, List.not_mem_nil, or_false] at hy
      rcases hy with rfl | rfl | rfl | rfl <;> trivial
    · rw [List.mem_singleton.1 hy]
      exact ⟨by decide, by decide, by decide⟩
  · intro x hx
    simp only [sampleSecs, List.mem_cons, List.not_mem_nil, or_false] at hx
    rcases hx with rfl | rfl
    · exact logged_of (bs := [[128, 0, 20, 176, 0, 5, 16, 16, 1, 82, 3]]) (last := [[65, 0, 28, 32, 1]]) (by decide +kernel) ⟨_, rfl⟩
    · exact logged_of (bs := []) (last := [[129, 0, 20, 96, 1]]) (by decide +kernel) ⟨[], rfl⟩

namespace Sample
open Sis.Sdb.Sample (lib env b infoDb dbs readable restores key_of)
open Sis.Sno.Sample (ok_cons ok_nil put_of key_a tab_of some_getD moderate)

/-- A table `x` of a text, described by `[120]`. -/
def texts : Env := ⟨fun _ => [⟨b "x", infoDb⟩], fun n => List.replicate n 0⟩

def got : List Sno.Rec := [⟨b "a", b "x", [65, 66, 0, 0]⟩, ⟨b "a", b "x", [67, 0, 0, 0]⟩]

def file : Bytes × Bytes := (Sno.session (lib false) env 10 none ((fileOf [b "a"] [⟨b "x", infoDb⟩] got).map Sno.Act.cmd)).getD ([], [])

/-- The conditions of `C119_read_partial`. -/
example : Dict texts [b "a"] [⟨b "x", infoDb⟩] (b "a") [120] ∧ Stored [b "a"] [⟨b "x", infoDb⟩] [(0, 0, [65, 66, 0, 0]), (0, 0, [67, 0, 0, 0])] got ∧ Sdb.Restores (lib false) ∧ Sdb.Readable (lib false) (· ∈ dbs) ∧
    Sno.Session (lib false) env (· ∈ dbs) 10 none {} (fileOf [b "a"] [⟨b "x", infoDb⟩] got) file ∧ Disk.Smooth file.1 := by
  refine ⟨⟨by decide +kernel, ?_, by simp, by simp, rfl, by simp, by simp, ?_, by decide +kernel, by decide⟩, ⟨rfl, ?_⟩, restores false, readable false, ⟨?_, some_getD (by decide +kernel), by decide +kernel,
    moderate (by decide +kernel) (by decide +kernel) (by decide +kernel)⟩, Disk.smooth_small (by decide +kernel)⟩
  · intro k hk
    rw [List.mem_singleton.1 hk]
    exact key_a
  · intro t ht
    rw [List.mem_singleton.1 ht]
    refine ⟨⟨.create (ds := [⟨some (b "n"), some .char, 4, 1, false, 0, false⟩]) (by decide +kernel) (by decide), by decide +kernel, Zip.of_flds ?_⟩, by decide +kernel, by decide +kernel, by decide +kernel⟩
    exact Zip.flds_one rfl (f := ⟨b "n", .char, 4, 1, 0, 0, false, false⟩) (by decide +kernel) (.inr rfl)
  · intro i k s r hi
    match i, hi with
    | 0, hi => cases hi; exact ⟨_, _, _, rfl, rfl, rfl, by decide +kernel, Zip.same_refl _ _⟩
    | 1, hi => cases hi; exact ⟨_, _, _, rfl, rfl, rfl, by decide +kernel, Zip.same_refl _ _⟩
  · unfold fileOf got
    refine ok_cons ?_ (ok_cons ?_ (ok_cons rfl (ok_cons (put_of rfl key_a (by decide +kernel)) (ok_cons (put_of (by decide +kernel) key_a (by decide +kernel))
      (ok_cons (by decide +kernel : (_ : Sno.Abs).busy = true) ok_nil)))))
    · intro k hk
      rw [List.mem_singleton.1 hk]
      exact ⟨key_a, by decide +kernel⟩
    · refine ⟨?_, by decide +kernel⟩
      intro t ht
      rw [List.mem_singleton.1 ht]
      exact ⟨tab_of (by decide +kernel), by decide +kernel, by decide +kernel, by decide +kernel, by intro o ho; cases ho⟩

end Sample

/-! ### Where it fails -/

/-- The records of a closed file. -/
def putsIn (w : W) : List (Nat × List Sno.Rec) := w.files.map fun f => (f.1, f.2.filterMap fun | .put k s d => some ⟨k, s, d⟩ | _ => none)

/-- C119 fails: the process comes back on the same day with other keys.  Its records are stored under the keys of the time before. -/
theorem C119_violated_keys : Logged sample [97] [118] [.record 0 0 [5]] [[128, 0, 20, 160, 1]] ∧ Logged sample [98] [118] [.record 0 0 [9]] [[128, 0, 21, 32, 1]] ∧
    (toSno sample {} 20240102 true [.keys [97], .sdbs [118], .zpub [128, 0, 20, 160, 1], .keys [98], .sdbs [118], .zpub [128, 0, 21, 32, 1]]).map putsIn =
      some [(20240102, [⟨[97], [118], [5]⟩, ⟨[97], [118], [9]⟩])] := by
  refine ⟨logged_of (bs := []) (last := [[128, 0, 20, 160, 1]]) (by decide +kernel) ⟨[], rfl⟩, logged_of (bs := []) (last := [[128, 0, 21, 32, 1]]) (by decide +kernel) ⟨[], rfl⟩, by decide +kernel⟩

/-- C119 fails: it comes back with one key more.  A record of that key makes the program use a NULL pointer, and again whenever it starts. -/
theorem C119_violated_more : Logged sample [97] [118] [.record 0 0 [5]] [[128, 0, 20, 160, 1]] ∧ Logged sample [97, 44, 98] [118] [.record 1 0 [3]] [[129, 0, 20, 96, 1]] ∧
    toSno sample {} 20240102 true [.keys [97], .sdbs [118], .zpub [128, 0, 20, 160, 1], .keys [97, 44, 98], .sdbs [118], .zpub [129, 0, 20, 96, 1]] = none := by
  refine ⟨logged_of (bs := []) (last := [[128, 0, 20, 160, 1]]) (by decide +kernel) ⟨[], rfl⟩, logged_of (bs := []) (last := [[129, 0, 20, 96, 1]]) (by decide +kernel) ⟨[], rfl⟩, by
    have : (toSno sample {} 20240102 true [.keys [97], .sdbs [118], .zpub [128, 0, 20, 160, 1], .keys [97, 44, 98], .sdbs [118], .zpub [129, 0, 20, 96, 1]]).isNone = true := by decide +kernel
    exact Option.isNone_iff_eq_none.1 this⟩

/-- C119 fails: a crash right after keys and tables were written into the log.  The file is stopped without having been started, which uses a NULL pointer, whenever
the program starts. -/
theorem C119_violated_empty (e : Env) {w : W} (hw : w.writer = .null) (hi : w.status = .none ∨ w.status = .init) (day : Nat) (K T : Bytes) :
    (toSno e w day true [.keys K, .sdbs T]).map W.files = some (w.files ++ [(day, [.stop])]) ∧ ∀ lib v limit, Sno.session lib v limit none [.stop] = none := by
  refine ⟨?_, ?_⟩
  · unfold toSno
    rw [if_neg (by rcases hi with hi | hi <;> rw [hi] <;> simp)]
    simp [run, callOf, step, stopFile, hw]
  · intro lib v limit
    rfl

/-- C119 fails: the file cannot be opened.  Nothing of the log is stored, the log is taken for done, and the next log makes the program use a writer without file. -/
theorem C119_violated_open (e : Env) {w : W} (hw : w.writer = .null) (hi : w.status = .none ∨ w.status = .init) (day : Nat) (log : List Snodb.Rec) :
    ∃ w', toSno e w day false log = some w' ∧ w'.files = w.files ∧ ∀ day' opens log', toSno e w' day' opens log' = none := by
  have hrun : ∀ (log : List Snodb.Rec) (K T : Option Bytes), ∃ K' T', run e ⟨.fail, K, T, none, .broken, w.files⟩ (log.map callOf ++ [.stop]) = some ⟨.init, K', T', none, .broken, w.files⟩ := by
    intro log
    induction log with
    | nil => intro K T; exact ⟨K, T, rfl⟩
    | cons r log ih =>
      intro K T
      rw [List.map_cons, List.cons_append, run_cons]
      cases r with
      | keys t => exact ih (some t) T
      | sdbs t => exact ih K (some t)
      | zpub p => exact ih K T
  obtain ⟨K', T', h⟩ := hrun log none none
  refine ⟨⟨.init, K', T', none, .broken, w.files⟩, ?_, rfl, ?_⟩
  · unfold toSno
    rw [if_neg (by rcases hi with hi | hi <;> rw [hi] <;> simp), List.cons_append, run_cons]
    have : step e { w with status := .init } (.start day false) = some ⟨.fail, none, none, none, .broken, w.files⟩ := by simp [step, stopFile, hw]
    rw [this, Option.bind_some, h]
  · intro day' opens log'
    unfold toSno
    rw [if_neg (by simp), List.cons_append, run_cons]
    rfl

/-- C119 fails: a log that begins with a packet instead of keys and tables makes the program use a NULL pointer. -/
theorem C119_violated_nokeys (e : Env) {w : W} (hw : w.writer = .null) (hi : w.status = .none ∨ w.status = .init) (day : Nat) (p : Bytes) (log : List Snodb.Rec) :
    toSno e w day true (.zpub p :: log) = none := by
  unfold toSno
  rw [if_neg (by rcases hi with hi | hi <;> rw [hi] <;> simp), List.map_cons, List.cons_append, List.cons_append, run_cons]
  have : step e { w with status := .init } (.start day true) = some ⟨.opened, none, none, none, .on day [], w.files⟩ := by simp [step, stopFile, hw]
  rw [this, Option.bind_some, run_cons]
  rfl

/-- C119 fails: what came and was not yet in a packet when the process crashed is not in the log and not in the file. -/
theorem C119_violated_late : ∃ i0 i, zipOpen sample [97] [118] = some i0 ∧ zipRun i0 [.record 0 0 [5], .record 0 0 [7]] = some ([], i) := by
  have h : ((zipOpen sample [97] [118]).bind fun i => (zipRun i [.record 0 0 [5], .record 0 0 [7]]).map fun r => r.1) = some [] := by decide +kernel
  simp only [Option.bind_eq_some_iff, Option.map_eq_some_iff] at h
  obtain ⟨i0, h1, ⟨bs, i⟩, h2, h3⟩ := h
  cases h3
  exact ⟨i0, i, h1, h2⟩

end Sis.Wsno
