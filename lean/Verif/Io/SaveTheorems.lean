import Verif.Io.SaveSpec
import Verif.Io.SaveProg
import Verif.Io.IoTheorems
import Verif.Sdb.SampleHist
/-
Property theorems on a server that is saved and started again (C105).
-/
namespace Sis.Io
open Sis

/-! ### Concrete servers -/

/-- Files of the sample library, in China, on 4 June 2021. -/
def vs₀ : Time.Env := ⟨28800, 1622790000⟩
def lib₀ : Sdb.Lib := Sdb.Sample.lib false
def es₀ : Env := ⟨Rec.fl₀, .interp, periodNum vs₀⟩

/-- A table of days, one of seconds, and one with a number as its index. -/
def dayCols : List Col := [⟨"time".toUTF8.toList, .date, 4, 0, false⟩, ⟨"val".toUTF8.toList, .int, 4, 0, false⟩]
def secCols : List Col := [⟨"time".toUTF8.toList, .tsec, 4, 0, false⟩, ⟨"val".toUTF8.toList, .int, 4, 0, false⟩]
def numCols : List Col := [⟨"no".toUTF8.toList, .int, 4, 0, true⟩, ⟨"val".toUTF8.toList, .int, 4, 0, false⟩]

/-- Commands that define a table and send rows to the key `k.t`, one after the other. -/
def sentTo (cols : List Col) (rows : List String) : List Cmd :=
  .create "t".toUTF8.toList (some (tableText cols)) :: rows.map fun r => .set "k.t".toUTF8.toList (some r.toUTF8.toList)

def ask (q : Cond) : Bytes × Option Bytes := queryOf "k.t".toUTF8.toList q
def told₁ (s : String) : Reply := .chars s.toUTF8.toList

/-- Two rows sent one by one are there after a save and a start, whatever was asked before. -/
example : answersBack es₀ lib₀ vs₀ (sentTo dayCols ["[20210601,1]", "[20220601,2]"])
      [ask (.range 20210101 20211231 false), ask (.range 20210101 20221231 false), ask (.range 20230101 20231231 false)] =
    some [told₁ "{\"k.t\":[20210601,1]}", told₁ "{\"k.t\":[[20210601,1],[20220601,2]]}", .null] ∧
  answers es₀ (sentTo dayCols ["[20210601,1]", "[20220601,2]"])
      [ask (.range 20210101 20211231 false), ask (.range 20210101 20221231 false), ask (.range 20230101 20231231 false)] =
    some [told₁ "{\"k.t\":[20210601,1]}", told₁ "{\"k.t\":[[20210601,1],[20220601,2]]}", .null] := by
  decide +kernel

/-- C105 (violated). What was sent to a key by a single command, here two rows, is lost by a save and a start: it was not marked to be
written. -/
theorem C105_violated_once :
    answers es₀ (sentTo dayCols ["[[20210601,1],[20220601,2]]"]) [ask (.range 20210101 20221231 false)] =
      some [told₁ "{\"k.t\":[[20210601,1],[20220601,2]]}"] ∧
    answersBack es₀ lib₀ vs₀ (sentTo dayCols ["[[20210601,1],[20220601,2]]"]) [ask (.range 20210101 20221231 false)] = some [.null] := by
  decide +kernel

/-- C105 (violated). After a start a query of the rows of a time finds nothing, until a query of a range has loaded them. -/
theorem C105_violated_where :
    answers es₀ (sentTo dayCols ["[20210601,1]", "[20220601,2]"]) [ask (.at 20210601)] = some [told₁ "{\"k.t\":[20210601,1]}"] ∧
    answersBack es₀ lib₀ vs₀ (sentTo dayCols ["[20210601,1]", "[20220601,2]"])
      [ask (.at 20210601), ask (.range 20210101 20211231 false), ask (.at 20210601)] =
        some [.null, told₁ "{\"k.t\":[20210601,1]}", told₁ "{\"k.t\":[20210601,1]}"] := by
  decide +kernel

/-- C105 (violated). After a start the latest row of a table of seconds is the last one of the first day, and a range without an end
is empty. -/
theorem C105_violated_latest :
    answers es₀ (sentTo secCols ["[1622640000,1]", "[1622740000,2]"]) [ask .latest, ask (.range 1622640000 0 false)] =
      some [told₁ "{\"k.t\":[1622740000,2]}", told₁ "{\"k.t\":[1622640000,1]}"] ∧
    answersBack es₀ lib₀ vs₀ (sentTo secCols ["[1622640000,1]", "[1622740000,2]"]) [ask .latest] = some [told₁ "{\"k.t\":[1622640000,1]}"] ∧
    answersBack es₀ lib₀ vs₀ (sentTo secCols ["[1622640000,1]", "[1622740000,2]"]) [ask (.range 1622640000 0 false)] = some [.null] := by
  decide +kernel

/-- C105 (violated). A table with a number as its index and no time is kept as one without index: after a start the condition of a
query counts for nothing, and it is answered with the first row. -/
theorem C105_violated_index :
    answers es₀ (sentTo numCols ["[1,10]", "[2,20]", "[3,30]"]) [ask (.range 2 3 false)] = some [told₁ "{\"k.t\":[[2,20],[3,30]]}"] ∧
    answersBack es₀ lib₀ vs₀ (sentTo numCols ["[1,10]", "[2,20]", "[3,30]"]) [ask (.range 2 3 false)] = some [told₁ "{\"k.t\":[1,10]}"] := by
  decide +kernel

/-- C105 (violated). Rows that were saved are there twice after they were saved again together with earlier ones. -/
theorem C105_violated_again :
    answers es₀ (sentTo dayCols ["[20210601,1]", "[20210601,2]"] ++ (sentTo dayCols ["[20210501,0]", "[20210701,3]"]).tail)
      [ask (.range 20210101 20211231 false)] = some [told₁ "{\"k.t\":[[20210501,0],[20210601,1],[20210601,2],[20210701,3]]}"] ∧
    answersAgain es₀ lib₀ vs₀ (sentTo dayCols ["[20210601,1]", "[20210601,2]"]) (sentTo dayCols ["[20210501,0]", "[20210701,3]"]).tail
      [ask (.range 20210101 20211231 false)] =
        some [told₁ "{\"k.t\":[[20210601,1],[20210601,2],[20210501,0],[20210601,1],[20210601,2],[20210701,3]]}"] := by
  decide +kernel

/-! ### Every history -/

/-- C105: whatever tables clients define, rows they send and queries they make, if the rows are usual then the save comes to its end,
whatever the order of the series; if the files are not too large the server starts again on them; and queries of ranges, however many,
of keys to which rows were sent more than once or never are answered as by the server that was not started again.  Missing: keys to
which rows were sent by a single command, which are lost (`C105_violated_once`, `C105_once_partial`); other queries, which are answered
otherwise (`C105_violated_where`, `C105_violated_latest`); tables without a time (`C105_violated_index`); a second save
(`C105_violated_again`); deletes before the save. -/
theorem C105_back_partial {e : Env} {lib : Sdb.Lib} {v : Time.Env} (he : e.sign = periodNum v) (hz : Time.Zone v) (ht : lib.trace = false)
    (L : Sdb.Restores lib) (R : Sdb.Real lib) {prog : List Do} (hf : Fits e.fl v prog) {c : Cxt} {rs : List Reply}
    (hr : run e .empty (prog.map Do.cmd) = some (c, rs)) {order : List (Bytes × Ser)} (ho : order.Perm c.sers) :
    ∃ d, save lib v c order {} = some d ∧ (Sdb.Moderate d → ∃ s, restart lib d = some s ∧
      ∀ qs : List (Bytes × Option Bytes), (∀ q ∈ qs, RangeQuery q ∧ (sent prog q.1).length ≠ 1) →
        getsBack e lib v d s qs = answers e (prog.map Do.cmd) qs) := by
  have hat : AtProg e v prog c := by
    have := run_at prog [] (empty_at e v) hf hr
    simpa using this
  have hk := kept_of hat
  obtain ⟨T, K⟩ := Sdb.C82_database_partial R
  obtain ⟨d, h1, h2⟩ := save_wrote hz hk ho ht L T K
  refine ⟨d, h1, fun hm => ?_⟩
  obtain ⟨a0, a, w1, w2, w3, w4, w5⟩ := h2 hm
  obtain ⟨s, s1, s2⟩ := restart_like he hz hk ht L T K w1 w2 w3 w4 w5
  refine ⟨s, s1, fun qs hq => ?_⟩
  rw [gets_back hk qs s2 fun q hq' => ranged_of (hq q hq').1]
  unfold answers
  rw [run_append, hr, Option.bind_some, run_gets]
  have : qs.map (want e c) = qs.map fun q => get e c q.1 q.2 :=
    List.map_congr_left fun q hq' => by rw [want_of hat q (hq q hq').1, if_neg (hq q hq').2]
  rw [this]
  cases hev : Sdb.every (qs.map fun q => get e c q.1 q.2) with
  | none => rfl
  | some l =>
    have hl : rs.length = (prog.map Do.cmd).length := run_length e _ _ hr
    simp only [Option.map_some]
    rw [← hl, List.drop_left]

/-- C105: after the same, queries of ranges of keys to which rows were sent exactly once find nothing: all such rows are lost. -/
theorem C105_once_partial {e : Env} {lib : Sdb.Lib} {v : Time.Env} (he : e.sign = periodNum v) (hz : Time.Zone v) (ht : lib.trace = false)
    (L : Sdb.Restores lib) (R : Sdb.Real lib) {prog : List Do} (hf : Fits e.fl v prog) {c : Cxt} {rs : List Reply}
    (hr : run e .empty (prog.map Do.cmd) = some (c, rs)) {order : List (Bytes × Ser)} (ho : order.Perm c.sers) :
    ∃ d, save lib v c order {} = some d ∧ (Sdb.Moderate d → ∃ s, restart lib d = some s ∧
      ∀ qs : List (Bytes × Option Bytes), (∀ q ∈ qs, RangeQuery q ∧ (sent prog q.1).length = 1) →
        getsBack e lib v d s qs = some (qs.map fun _ => .null)) := by
  have hat : AtProg e v prog c := by
    have := run_at prog [] (empty_at e v) hf hr
    simpa using this
  have hk := kept_of hat
  obtain ⟨T, K⟩ := Sdb.C82_database_partial R
  obtain ⟨d, h1, h2⟩ := save_wrote hz hk ho ht L T K
  refine ⟨d, h1, fun hm => ?_⟩
  obtain ⟨a0, a, w1, w2, w3, w4, w5⟩ := h2 hm
  obtain ⟨s, s1, s2⟩ := restart_like he hz hk ht L T K w1 w2 w3 w4 w5
  refine ⟨s, s1, fun qs hq => ?_⟩
  rw [gets_back hk qs s2 fun q hq' => ranged_of (hq q hq').1]
  have : qs.map (want e c) = qs.map fun _ => some .null :=
    List.map_congr_left fun q hq' => by rw [want_of hat q (hq q hq').1, if_pos (hq q hq').2]
  rw [this]
  clear this hq
  induction qs with
  | nil => rfl
  | cons q qs ih =>
    show (Sdb.every (qs.map fun _ => some Reply.null)).map _ = _
    rw [ih]; rfl

/-! ### A history that meets the hypotheses -/

def daySheet : Sheet := ⟨"t".toUTF8.toList, dayCols, 0⟩
def dayRow (d n : Int) : List Rec.Val := [.num d, .num n]

/-- A table of days; a row; a query; two rows to the same key, one of which is late; a row to another key. -/
def prog₀ : List Do := [.define daySheet, .send "k.t".toUTF8.toList [dayRow 20210601 1], .ask "k.t".toUTF8.toList none,
  .send "K.T".toUTF8.toList [dayRow 20220601 2, dayRow 20210501 0], .send "o.t".toUTF8.toList [dayRow 20210701 5]]

theorem dayCols_ok : ColsOk dayCols := by
  refine ⟨?_, by decide +kernel, by decide +kernel⟩
  intro c hc
  simp only [dayCols, List.mem_cons, List.not_mem_nil, or_false] at hc
  have hp : ∀ n ∈ ["time".toUTF8.toList, "val".toUTF8.toList], n ≠ [] ∧ n.length ≤ 31 ∧ ∀ c ∈ n, 32 ≤ c ∧ c ≠ 34 ∧ c ≠ 92 := by
    decide +kernel
  rcases hc with rfl | rfl
  · exact ⟨hp _ (by simp), by decide, by decide⟩
  · exact ⟨hp _ (by simp), by decide, by decide⟩

theorem daySheet_ok : daySheet.Ok vs₀ where
  name := ⟨by decide +kernel, by decide +kernel, by decide +kernel⟩
  plain := by decide +kernel
  cols := dayCols_ok
  time := ⟨_, rfl, .inl ⟨by unfold TimeStyle; decide +kernel, fun _ _ _ _ => Nat.zero_le _⟩⟩
  style := fun c hc => by
    have : c = ⟨"time".toUTF8.toList, .date, 4, 0, false⟩ := (Option.some.inj hc).symm
    subst this
    exact ⟨by unfold TimeStyle; decide +kernel, by decide +kernel⟩
  len := fun c hc => by
    have : ∀ c ∈ dayCols, c.len = 1 ∨ c.len = 2 ∨ c.len = 4 ∨ c.len = 8 := by decide +kernel
    exact fun _ => this c hc
  size := by decide +kernel

theorem dayRow_ok {d n : Int} (hd : 0 ≤ d ∧ d < 2 ^ 31) (hn : -2 ^ 31 ≤ n ∧ n < 2 ^ 31) : RowOk Rec.fl₀ dayCols 0 (dayRow d n) := by
  refine ⟨rfl, ?_, d, hd.1, rfl⟩
  intro i f x hf hx
  match i with
  | 0 =>
    cases hf; cases hx
    exact ⟨⟨⟨by simp, by simp⟩, by simp [Dyn.Fits]; omega, by omega⟩, by show -2 ^ 63 < d; omega⟩
  | 1 =>
    cases hf; cases hx
    exact ⟨⟨⟨by simp, by simp⟩, by simp [Dyn.Fits]; omega, by omega⟩, by show -2 ^ 63 < n; omega⟩
  | k + 2 => cases hf

theorem prog₀_fits : Fits es₀.fl vs₀ prog₀ := by
  have hsh : ∀ l, daySheet ∈ sheetsOf (.define daySheet :: l) := fun l => by simp [sheetsOf]
  have key : ∀ (p : Bytes), p ∈ [[107], [75], [111]] → Sdb.KeyName p ∧ CStr p ∧ (42 : UInt8) ∉ p := by
    intro p hp
    simp only [List.mem_cons, List.not_mem_nil, or_false] at hp
    rcases hp with rfl | rfl | rfl
    all_goals exact ⟨Sdb.Sample.key_of (by decide +kernel), by unfold CStr; decide, by decide⟩
  have hcol : ∀ c, daySheet.cols[daySheet.j]? = some c → c.style = .date := fun c hc => by
    have : c = ⟨"time".toUTF8.toList, .date, 4, 0, false⟩ := (Option.some.inj hc).symm
    rw [this]
  intro pre x post h
  unfold prog₀ at h
  rcases pre with _ | ⟨p1, pre⟩
  · cases h
    exact ⟨daySheet_ok, nofun⟩
  rcases pre with _ | ⟨p2, pre⟩
  · cases h
    obtain ⟨k1, k2, k3⟩ := key [107] (by simp)
    refine ⟨daySheet, hsh _, ⟨[107], [116], by decide +kernel, k1, k2, k3, by decide +kernel⟩, nofun, by decide +kernel, fun _ => List.pairwise_singleton _ _, fun c hc => ?_⟩
    rw [hcol c hc]
    refine ⟨fun r hr => ?_, .inl (by decide +kernel)⟩
    rw [List.mem_singleton.1 hr]
    exact ⟨dayRow_ok (by decide) (by decide), by unfold UsualTime; decide +kernel⟩
  rcases pre with _ | ⟨p3, pre⟩
  · cases h; trivial
  rcases pre with _ | ⟨p4, pre⟩
  · cases h
    obtain ⟨k1, k2, k3⟩ := key [75] (by simp)
    refine ⟨daySheet, hsh _, ⟨[75], [84], by decide +kernel, k1, k2, k3, by decide +kernel⟩, nofun, by decide +kernel, fun h0 => absurd h0 (by decide +kernel), fun c hc => ?_⟩
    rw [hcol c hc]
    refine ⟨fun r hr => ?_, .inl (by decide +kernel)⟩
    simp only [List.mem_cons, List.not_mem_nil, or_false] at hr
    rcases hr with rfl | rfl
    all_goals exact ⟨dayRow_ok (by decide) (by decide), by unfold UsualTime; decide +kernel⟩
  rcases pre with _ | ⟨p5, pre⟩
  · cases h
    obtain ⟨k1, k2, k3⟩ := key [111] (by simp)
    refine ⟨daySheet, hsh _, ⟨[111], [116], by decide +kernel, k1, k2, k3, by decide +kernel⟩, nofun, by decide +kernel, fun _ => List.pairwise_singleton _ _, fun c hc => ?_⟩
    rw [hcol c hc]
    refine ⟨fun r hr => ?_, .inl (by decide +kernel)⟩
    rw [List.mem_singleton.1 hr]
    exact ⟨dayRow_ok (by decide) (by decide), by unfold UsualTime; decide +kernel⟩
  · exact absurd (congrArg List.length h) (by simp)

/-- The hypotheses of `C105_back_partial` hold of it, its files are moderate, and the first key was sent two times. -/
example : ∃ c rs d, run es₀ .empty (prog₀.map Do.cmd) = some (c, rs) ∧ save lib₀ vs₀ c c.sers {} = some d ∧ Sdb.Moderate d ∧ Fits es₀.fl vs₀ prog₀ ∧
    es₀.sign = periodNum vs₀ ∧ Time.Zone vs₀ ∧ Sdb.Restores lib₀ ∧ Sdb.Real lib₀ ∧ lib₀.trace = false ∧
    (sent prog₀ "k.t".toUTF8.toList).length = 2 ∧ (sent prog₀ "o.t".toUTF8.toList).length = 1 := by
  have hev : ((run es₀ .empty (prog₀.map Do.cmd)).bind fun p => (save lib₀ vs₀ p.1 p.1.sers {}).map fun d =>
      d.main.all (fun x => decide (x.length + 48 ≤ 16777216)) && d.units.all (fun e => decide (e.2.1.length < 2 ^ 32) && decide (e.2.2.length ≤ 16777216))) =
      some true := by decide +kernel
  obtain ⟨⟨c, rs⟩, h1, h2⟩ := Option.bind_eq_some_iff.1 hev
  obtain ⟨d, h3, h4⟩ := Option.map_eq_some_iff.1 h2
  rw [Bool.and_eq_true] at h4
  exact ⟨c, rs, d, h1, h3, Sdb.Sample.moderate_of h4, prog₀_fits, rfl, by unfold Time.Zone; decide, Sdb.Sample.restores _, Sdb.Sample.lib_real _, rfl,
    by decide +kernel, by decide +kernel⟩

/-- A query of a range that is one. -/
example : RangeQuery (ask (.range 20210101 20221231 false)) :=
  ⟨20210101, 20221231, [], by decide, by decide, by decide, by decide, rfl, nofun⟩

end Sis.Io
