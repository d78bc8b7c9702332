import Verif.Io.AloneLemmas
import Verif.Rec.RecTheorems
/-
What clients of a database in memory get: C96, C98, C99 and C100.
-/
namespace Sis.Io
open Sis
open Sis.Dyn (Db Field getN setN)
open Sis.Fmap (Sorted recordsAt recordsIn)
open Sis.Rec (Fl Val rowText rowsText PlainText)

theorem reached_inv {e : Env} {cols : List Col} {j : Nat} {tname key : Bytes} {pre : List Cmd} {acts : List Act} {c : Cxt} {rs : List Reply}
    (h : Reached e cols j tname key pre acts c rs) :
    (∃ rs₁ rs₂, rs = rs₁ ++ .ok :: rs₂ ∧ rs₁.length = pre.length ∧ Answers rs₂ (replies (timeOf j) [] acts)) ∧
    ∃ db rows, Tab cols j db ∧ Inv e cols j db tname key c rows ∧ rows.Perm (left (timeOf j) [] acts) ∧
      rows.length * (cols.map Col.len).sum < 2 ^ 31 ∧ (InOrder (timeOf j) [] acts → rows = left (timeOf j) [] acts) := by
  have hrun := h.done
  rw [run_append] at hrun
  obtain ⟨⟨c1, rs1⟩, e1, hrun⟩ := Option.bind_eq_some_iff.1 hrun
  obtain ⟨⟨c2, rs2⟩, e2, hrun⟩ := Option.map_eq_some_iff.1 hrun
  obtain ⟨t1, t2, t3⟩ := run_other h.before e1
  cases hrun
  simp only [run, Option.bind_eq_bind] at e2
  obtain ⟨⟨c3, r⟩, e3, e2⟩ := Option.bind_eq_some_iff.1 e2
  obtain ⟨⟨c4, rs4⟩, e4, e2⟩ := Option.bind_eq_some_iff.1 e2
  cases e2
  obtain ⟨db, ht, hc⟩ := create_table h.table h.time c1 (tname := tname) (by rw [t1]; rfl)
  simp only [step] at e3
  rw [hc] at e3
  cases e3
  have hi : Inv e cols j db tname key { c1 with tabs := (setN c1.tabs tname ⟨db, []⟩).1 } [] := by
    refine ⟨?_, fun _ => rfl, ?_, .nil⟩
    · rw [Sdb.getN_setN, if_pos (Dyn.sameN_iff.2 rfl)]
    · intro s hs
      rw [show getN c1.sers key = none by rw [t2]; rfl] at hs
      cases hs
  obtain ⟨h1, rows, h2, h3, h4, h5⟩ := run_inv ht h.name.1 hi .nil (by simp) h.legal e4
  exact ⟨⟨rs1, rs4, rfl, t3, h1⟩, db, rows, ht, h2, h3, by rw [h3.length_eq]; exact h4, h5 rfl⟩

/-! ### C96 -/

/-- C96: whatever else clients do, a series is what was sent to it and not deleted.  Each command about the series is answered 1, or
with the number of rows deleted; the series has the rows left, sorted by their times, in the order they came if they came sorted; and
a query is answered with the rows of its times.  For tables with a time, columns of one element that are not unique, numbers from a
text kept exactly, and a first batch in order. -/
theorem C96_series_partial {e : Env} {cols : List Col} {j : Nat} {tname key : Bytes} {pre : List Cmd} {acts : List Act} {c : Cxt} {rs : List Reply}
    (h : Reached e cols j tname key pre acts c rs) :
    (∃ rs₁ rs₂, rs = rs₁ ++ .ok :: rs₂ ∧ rs₁.length = pre.length ∧ Answers rs₂ (replies (timeOf j) [] acts)) ∧
    ∃ rows, Sorted (timeOf j) rows ∧ rows.Perm (left (timeOf j) [] acts) ∧ (InOrder (timeOf j) [] acts → rows = left (timeOf j) [] acts) ∧
      (∀ q : Cond, q.Ok (timeOf j) rows → get e c key (some (askText q [])) = some (told key (q.found (timeOf j) rows))) ∧
      get e c key none = some (told key (Cond.latest.found (timeOf j) rows)) := by
  obtain ⟨h1, db, rows, ht, hi, hp, hl, ho⟩ := reached_inv h
  exact ⟨h1, rows, hi.sorted, hp, ho, fun q hq => get_told ht h.name.2 hi hl hq, get_latest ht h.name.2 hi hl⟩

/-- A table: a time, a number and a text. -/
def cols₀ : List Col := [⟨"time".toUTF8.toList, .msec, 8, 0, false⟩, ⟨"val".toUTF8.toList, .int, 4, 0, false⟩, ⟨"nm".toUTF8.toList, .char, 4, 0, false⟩]
def e₀ : Env := ⟨Rec.fl₀, .interp, fun _ t => t / 86400000⟩
def key₀ : Bytes := "K.t".toUTF8.toList
def row₀ (t v : Int) (s : String) : List Val := [.num t, .num v, .text s.toUTF8.toList]

/-- Other commands: another table is defined, and a key of a table that is not there yet is read. -/
def pre₀ : List Cmd := [.create "u".toUTF8.toList (some (tableText cols₀)), .get "K.t".toUTF8.toList none]

/-- A history: three rows, something else, a late row, and all rows of a time deleted. -/
def acts₀ : List Act := [.rows [row₀ 1000 (-1) "a", row₀ 2000 5 "b", row₀ 2000 6 ""],
  .other (.set "K.u".toUTF8.toList (some "[7,8,\"x\"]".toUTF8.toList)), .row (row₀ 1500 7 "late"), .delAt 1000]

theorem cols₀_ok : ColsOk cols₀ := by
  refine ⟨?_, by decide +kernel, by decide +kernel⟩
  intro c hc
  simp only [cols₀, List.mem_cons, List.not_mem_nil, or_false] at hc
  have hp : ∀ n ∈ ["time".toUTF8.toList, "val".toUTF8.toList, "nm".toUTF8.toList], n ≠ [] ∧ n.length ≤ 31 ∧ ∀ c ∈ n, 32 ≤ c ∧ c ≠ 34 ∧ c ≠ 92 := by
    decide +kernel
  rcases hc with rfl | rfl | rfl
  · exact ⟨hp _ (by simp), by decide, by decide⟩
  · exact ⟨hp _ (by simp), by decide, by decide⟩
  · exact ⟨hp _ (by simp), by decide, by decide⟩

theorem time₀ : TimeAt cols₀ 0 := ⟨_, rfl, .inl ⟨.inr (.inl rfl), fun _ _ _ _ => Nat.zero_le _⟩⟩

theorem row₀_ok {t v : Int} {s : String} (ht : 0 ≤ t ∧ t < 2 ^ 63) (hv : -2 ^ 31 ≤ v ∧ v < 2 ^ 31) (hs : s.toUTF8.toList.length ≤ 4)
    (hp : PlainText s.toUTF8.toList) : RowOk Rec.fl₀ cols₀ 0 (row₀ t v s) := by
  refine ⟨rfl, ?_, t, ht.1, rfl⟩
  intro i f x hf hx
  match i with
  | 0 =>
    cases hf; cases hx
    exact ⟨⟨⟨by simp, by simp⟩, by simp [Dyn.Fits]; omega, ht.2⟩, by show -2 ^ 63 < t; omega⟩
  | 1 =>
    cases hf; cases hx
    exact ⟨⟨⟨by simp, by simp⟩, by simp [Dyn.Fits]; omega, by omega⟩, by show -2 ^ 63 < v; omega⟩
  | 2 =>
    cases hf; cases hx
    exact ⟨⟨rfl, hp⟩, hs⟩
  | n + 3 => cases hf

theorem legal₀ : Legal Rec.fl₀ cols₀ 0 "t".toUTF8.toList key₀ [] acts₀ := by
  have hp : ∀ s ∈ ["a".toUTF8.toList, "b".toUTF8.toList, "".toUTF8.toList, "late".toUTF8.toList], s.length ≤ 4 ∧ ∀ c ∈ s, 32 ≤ c ∧ c ≠ 34 ∧ c ≠ 92 := by
    decide +kernel
  refine ⟨⟨nofun, ?_, by decide +kernel, fun _ => ?_⟩, ?_, ⟨?_, by decide +kernel⟩, ?_, trivial⟩
  · intro vs hv
    simp only [List.mem_cons, List.not_mem_nil, or_false] at hv
    rcases hv with rfl | rfl | rfl
    · exact row₀_ok (by decide) (by decide) (hp _ (by simp)).1 (hp _ (by simp)).2
    · exact row₀_ok (by decide) (by decide) (hp _ (by simp)).1 (hp _ (by simp)).2
    · exact row₀_ok (by decide) (by decide) (hp _ (by simp)).1 (hp _ (by simp)).2
  · unfold Sorted; decide +kernel
  · show "K.u".toUTF8.toList.map lower ≠ key₀.map lower
    decide +kernel
  · exact row₀_ok (by decide) (by decide) (hp _ (by simp)).1 (hp _ (by simp)).2
  · show 1000 < 2 ^ 63
    decide

theorem key₀_ok : KeyOf "t".toUTF8.toList key₀ ∧ PlainText key₀ :=
  ⟨⟨[75], [116], by decide +kernel, by decide, by decide, by decide +kernel⟩, by unfold PlainText; decide +kernel⟩

example : ∃ c rs, Reached e₀ cols₀ 0 "t".toUTF8.toList key₀ pre₀ acts₀ c rs ∧ rs = [.ok, .null, .ok, .int 1, .int 1, .int 1, .int 1] ∧
    get e₀ c key₀ (some "{\"range\":{\"start\":1500,\"stop\":2000}}".toUTF8.toList) =
      some (.chars "{\"K.t\":[[1500,7,\"late\"],[2000,5,\"b\"],[2000,6,\"\"]]}".toUTF8.toList) ∧
    get e₀ c key₀ (some "{\"where\":{\"start\":1000}}".toUTF8.toList) = some .null := by
  have hev : (run e₀ .empty (pre₀ ++ .create "t".toUTF8.toList (some (tableText cols₀)) :: acts₀.map (Act.cmd key₀))).map (fun p =>
      (p.2, get e₀ p.1 key₀ (some "{\"range\":{\"start\":1500,\"stop\":2000}}".toUTF8.toList),
        get e₀ p.1 key₀ (some "{\"where\":{\"start\":1000}}".toUTF8.toList))) =
      some ([.ok, .null, .ok, .int 1, .int 1, .int 1, .int 1],
        some (.chars "{\"K.t\":[[1500,7,\"late\"],[2000,5,\"b\"],[2000,6,\"\"]]}".toUTF8.toList), some .null) := by
    decide +kernel
  obtain ⟨⟨c, rs⟩, h1, h2⟩ := Option.map_eq_some_iff.1 hev
  simp only [Prod.mk.injEq] at h2
  refine ⟨c, rs, ⟨cols₀_ok, time₀, key₀_ok, ?_, legal₀, h1⟩, h2.1, h2.2.1, h2.2.2⟩
  intro m hm
  simp only [pre₀, List.mem_cons, List.not_mem_nil, or_false] at hm
  rcases hm with rfl | rfl
  · show "u".toUTF8.toList.map lower ≠ "t".toUTF8.toList.map lower
    decide +kernel
  · trivial

/-- C96 is violated by a first batch that is not in order: a row of time 1000 is stored, but is not found under its time,
and a range that has all three rows is answered with one. -/
theorem C96_unsorted_violated : (run e₀ .empty [.create "t".toUTF8.toList (some (tableText cols₀)),
      .set key₀ (some (rowsText [row₀ 3000 1 "a", row₀ 1000 2 "b", row₀ 2000 3 "c"])),
      .get key₀ (some (askText (.at 1000) [])), .get key₀ (some (askText (.range 1000 3000 false) []))]).map (·.2) =
    some [.ok, .int 1, .null, .chars "{\"K.t\":[3000,1,\"a\"]}".toUTF8.toList] := by
  decide +kernel

/-- C96 is violated by tables without a time: of three rows, only the first is ever returned, and none can be deleted. -/
theorem C96_timeless_violated : (run e₀ .empty
      [.create "n".toUTF8.toList (some (tableText [⟨"val".toUTF8.toList, .int, 4, 0, false⟩])),
       .set "k.n".toUTF8.toList (some "[[1],[2],[3]]".toUTF8.toList), .get "k.n".toUTF8.toList none,
       .get "k.n".toUTF8.toList (some (askText (.range 0 (-1) false) [])), .get "k.n".toUTF8.toList (some (askText (.range (-1) 0 false) [])),
       .del "k.n".toUTF8.toList (some (askText (.range 0 2 false) []))]).map (·.2) =
    some [.ok, .int 1, .chars "{\"k.n\":[1]}".toUTF8.toList, .chars "{\"k.n\":[1]}".toUTF8.toList, .chars "{\"k.n\":[1]}".toUTF8.toList, .int 0] := by
  decide +kernel

/-- C96 is violated by keys without a table: a value that is set under such a key is dropped. -/
theorem C96_single_violated : (run e₀ .empty [.set "name".toUTF8.toList (some "hello".toUTF8.toList), .get "name".toUTF8.toList none]).map (·.2) =
    some [.int 0, .null] := by
  decide +kernel

/-! ### C98 -/

/-- C98: what a client does with a table and one of its series does not depend on what is done with others.  If commands about
these, and commands about something else, have been executed, then the former would have been executed without the latter; would
have been answered the same; and so would be any query. -/
theorem C98_alone {e : Env} {tname key : Bytes} (hk : KeyOf tname key) {mine : Cmd → Bool} {ms : List Cmd}
    (hm : ∀ m ∈ ms, if mine m = true then Own tname key m else Elsewhere tname key m) {c c' : Cxt} {rs : List Reply}
    (h : run e c ms = some (c', rs)) :
    ∃ d, run e c (ms.filter mine) = some (d, ((ms.zip rs).filter fun p => mine p.1).map (·.2)) ∧ ∀ info, get e c' key info = get e d key info := by
  obtain ⟨d, h1, h2⟩ := run_alone hk (d := c) hm ⟨rfl, rfl⟩ h
  refine ⟨d, h1, fun info => ?_⟩
  unfold get
  rw [h2.2]

/-- C98: a command that writes nothing under a key changes no answer to a query of that key. -/
theorem C98_unchanged {e : Env} {c c' : Cxt} {m : Cmd} {r : Reply} (h : step e c m = some (c', r)) {key : Bytes} (hm : ¬ Writes key m)
    (info : Option Bytes) : get e c' key info = get e c key info := by
  have : getN c'.sers key = getN c.sers key := by
    cases m with
    | create n i =>
      refine (other_same (tname := n ++ [65]) (key := key) ?_ h).2
      intro he
      have := congrArg List.length he
      simp at this
    | set k i => exact (other_same (tname := []) (key := key) (m := .set k i) hm h).2
    | bset k i => exact (other_same (tname := []) (key := key) (m := .bset k i) hm h).2
    | get k i => exact (other_same (tname := []) (key := key) (m := .get k i) trivial h).2
    | del k i => exact (other_same (tname := []) (key := key) (m := .del k i) hm h).2
  unfold get
  rw [this]

example : ∃ c rs, run e₀ .empty (pre₀ ++ .create "t".toUTF8.toList (some (tableText cols₀)) :: acts₀.map (Act.cmd key₀)) = some (c, rs) ∧
    ∀ m ∈ pre₀ ++ .create "t".toUTF8.toList (some (tableText cols₀)) :: acts₀.map (Act.cmd key₀),
      if (match m with | .create n _ => n == [116] | .set k _ => k == key₀ | .bset _ _ => true | .get _ _ => false | .del _ _ => true) = true
      then Own "T".toUTF8.toList key₀ m else Elsewhere "T".toUTF8.toList key₀ m := by
  have hev : (run e₀ .empty (pre₀ ++ .create "t".toUTF8.toList (some (tableText cols₀)) :: acts₀.map (Act.cmd key₀))).isSome = true := by
    decide +kernel
  obtain ⟨⟨c, rs⟩, h⟩ := Option.isSome_iff_exists.1 hev
  refine ⟨c, rs, h, ?_⟩
  have n1 : "u".toUTF8.toList ≠ [116] ∧ "u".toUTF8.toList.map lower ≠ "T".toUTF8.toList.map lower ∧ "t".toUTF8.toList = [116] ∧
      "t".toUTF8.toList.map lower = "T".toUTF8.toList.map lower ∧ "K.u".toUTF8.toList ≠ key₀ ∧ "K.u".toUTF8.toList.map lower ≠ key₀.map lower := by
    decide +kernel
  obtain ⟨n1, n2, n3, n4, n5, n6⟩ := n1
  intro m hm
  simp only [pre₀, acts₀, List.cons_append, List.nil_append, List.map_cons, List.map_nil, Act.cmd, List.mem_cons, List.not_mem_nil, or_false] at hm
  rcases hm with rfl | rfl | rfl | rfl | rfl | rfl | rfl
  · dsimp only
    rw [if_neg (by simpa using n1)]
    exact n2
  · dsimp only
    rw [if_neg (by decide)]
    trivial
  · dsimp only
    rw [if_pos (by rw [n3]; rfl)]
    exact n4
  · dsimp only
    rw [if_pos (by simp)]
    rfl
  · dsimp only
    rw [if_neg (by simpa using n5)]
    exact n6
  · dsimp only
    rw [if_pos (by simp)]
    rfl
  · dsimp only
    rw [if_pos rfl]
    rfl

/-! ### C99 -/

/-- C99: a command that is refused changes no answer; but for queries of its own key that were answered with nothing. -/
theorem C99_refused_partial {e : Env} {c c' : Cxt} {m : Cmd} {r : Reply} (h : step e c m = some (c', r)) (hr : Refused r) (key : Bytes)
    (info : Option Bytes) : get e c' key info = get e c key info ∨ (Writes key m ∧ get e c key info = some .null) := by
  rcases refused_same h hr key with h1 | ⟨h1, h2⟩
  · left
    unfold get
    rw [h1]
  · by_cases hg : get e c key info = some .null
    · exact .inr ⟨h1, hg⟩
    · left
      unfold get at hg ⊢
      rw [h2] at hg ⊢
      simp only [Option.bind_eq_bind] at hg ⊢
      cases info with
      | none => exact absurd rfl hg
      | some s =>
        cases hx : Json.load s with
        | none => simp only [hx, Option.bind_none]
        | some n => exact absurd (by simp only [hx, Option.bind_some]) hg

example : ∃ c r, step e₀ .empty (.create "t".toUTF8.toList (some "{}".toUTF8.toList)) = some (c, r) ∧ Refused r := by
  have hev : (step e₀ .empty (.create "t".toUTF8.toList (some "{}".toUTF8.toList))).map (·.2) = some .error := by decide +kernel
  obtain ⟨⟨c, r⟩, h1, h2⟩ := Option.map_eq_some_iff.1 hev
  exact ⟨c, r, h1, by rw [show r = .error from h2]; trivial⟩

/-- C99 is violated by a text that is refused: it leaves an empty series, which is answered with an empty text. -/
theorem C99_refused_violated : (run e₀ .empty [.create "t".toUTF8.toList (some (tableText cols₀)),
      .get key₀ (some "{\"format\":\"csv\"}".toUTF8.toList), .set key₀ (some "[1,2".toUTF8.toList),
      .get key₀ (some "{\"format\":\"csv\"}".toUTF8.toList)]).map (·.2) = some [.ok, .null, .int (-3), .chars []] := by
  decide +kernel

/-! ### C100 -/

/-- C96, C100: after such a history, each command about the series that fits it is answered. -/
theorem C100_defined_partial {e : Env} {cols : List Col} {j : Nat} {tname key : Bytes} {pre : List Cmd} {acts : List Act} {c : Cxt} {rs : List Reply}
    (h : Reached e cols j tname key pre acts c rs) {a : Act} (ha : a.Legal e.fl cols j tname key (left (timeOf j) [] acts))
    (hown : ∀ m, a ≠ .other m) : ∃ c' r, step e c (a.cmd key) = some (c', r) ∧ a.reply (timeOf j) (left (timeOf j) [] acts) = some r := by
  obtain ⟨h1, db, rows, ht, hi, hp, hl, ho⟩ := reached_inv h
  obtain ⟨g1, g2⟩ := act_inv ht h.name.1 hi hp ha
  have hne : a.reply (timeOf j) (left (timeOf j) [] acts) ≠ none := by
    cases a with
    | other m => exact absurd rfl (hown m)
    | _ => nofun
  obtain ⟨⟨c', r⟩, hs⟩ := Option.isSome_iff_exists.1 (g1 hne)
  obtain ⟨y, hy⟩ := Option.ne_none_iff_exists'.1 hne
  exact ⟨c', r, hs, by rw [hy, (g2 c' r hs).1 y hy]⟩

example : Act.Legal Rec.fl₀ cols₀ 0 "t".toUTF8.toList key₀ (left (timeOf 0) [] acts₀) (.row (row₀ 9 9 "z")) ∧
    ∀ m, Act.row (row₀ 9 9 "z") ≠ .other m := by
  have hp : "z".toUTF8.toList.length ≤ 4 ∧ ∀ c ∈ "z".toUTF8.toList, 32 ≤ c ∧ c ≠ 34 ∧ c ≠ 92 := by decide +kernel
  exact ⟨⟨row₀_ok (by decide) (by decide) hp.1 hp.2, by decide +kernel⟩, nofun⟩

/-- C100: bytes that are not whole records are refused, and the records that are there are asked for as before. -/
theorem C100_odd {e : Env} {cols : List Col} {j : Nat} {tname key : Bytes} {pre : List Cmd} {acts : List Act} {c : Cxt} {rs : List Reply}
    (h : Reached e cols j tname key pre acts c rs) {b : Bytes} (hb : b.length % (cols.map Col.len).sum ≠ 0) :
    ∃ c', step e c (.bset key (some b)) = some (c', .int 0) ∧ (left (timeOf j) [] acts ≠ [] → c' = c) := by
  obtain ⟨h1, db, rows, ht, hi, hp, hl, ho⟩ := reached_inv h
  have hsz := size_pos ht
  have hput : ∀ s : Ser, s.tbl = ⟨db, []⟩ → put e s b = some none := by
    intro s hs
    unfold put
    rw [hs]
    dsimp only
    rw [if_neg (by omega), if_pos (by rw [ht.size]; exact hb)]
  obtain ⟨hdot, t, hn1, hn2⟩ := name_of_key h.name.1
  simp only [step, bset]
  rw [if_pos hdot, Option.bind_some]
  unfold update
  cases hg : getN c.sers key with
  | some s =>
    refine ⟨c, ?_, fun _ => rfl⟩
    dsimp only
    rw [if_neg (by rintro ⟨-, hz⟩; rw [hz] at hb; simp at hb), hput s (hi.some s hg).1]
    rfl
  | none =>
    have hnew : newSer c key = some ({ c with sers := (setN c.sers key ⟨⟨db, []⟩, ⟨[], [], 0, 0, 0⟩⟩).1 }, ⟨⟨db, []⟩, ⟨[], [], 0, 0, 0⟩⟩) := by
      unfold newSer
      rw [hn1, Option.bind_some, Dyn.getN_congr _ hn2, hi.tab]
      rfl
    dsimp only
    rw [hnew]
    dsimp only
    rw [hput _ rfl]
    refine ⟨_, rfl, fun hne => ?_⟩
    have h0 := hi.none hg
    subst h0
    exact absurd hp.symm.eq_nil hne

example : ([1, 2, 3] : Bytes).length % (cols₀.map Col.len).sum ≠ 0 ∧ left (timeOf 0) [] acts₀ ≠ [] := by decide +kernel

/-- C100 is violated by commands any client can send: a text for a key of a table that is not there, an empty record for a series that
is there, records without content, and a delete without condition. -/
theorem C100_crash_violated :
    (∀ e, step e .empty (.set "k.t".toUTF8.toList (some "[1]".toUTF8.toList)) = none) ∧
    (run e₀ .empty [.create "t".toUTF8.toList (some (tableText cols₀)), .set key₀ (some (rowText (row₀ 1 2 "a"))),
      .bset key₀ (some [])]).isNone = true ∧
    (∀ e c, step e c (.bset "k.t".toUTF8.toList none) = none) ∧ ∀ e c key, step e c (.del key none) = none := by
  refine ⟨?_, by decide +kernel, ?_, fun _ _ _ => rfl⟩
  · intro e
    have hk : "k.t".toUTF8.toList = [107, 46, 116] := by decide +kernel
    have ht : "[1]".toUTF8.toList = [91, 49, 93] := by decide +kernel
    rw [hk, ht]
    rfl
  · intro e c
    have hk : "k.t".toUTF8.toList = [107, 46, 116] := by decide +kernel
    rw [hk]
    rfl

end Sis.Io
