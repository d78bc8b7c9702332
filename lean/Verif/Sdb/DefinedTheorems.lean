import Verif.Sdb.Defined
import Verif.Sdb.MergeHist
import Verif.Sdb.SampleHist
/- C104: calls of a writer are defined. -/
namespace Sis.Sdb
open Sis
open Sis.Dyn (Db)

/-! ### Lemmas -/

private theorem defs_tabs (ts : List Tab) (h : ts.Pairwise fun x y => fold x.name ≠ fold y.name) : ∀ (defs : Bytes → Option Db) (n : Bytes),
    ts.foldl (fun defs t n => if n = fold t.name then some t.db else defs n) defs n = ((ts.find? fun t => fold t.name == n).map (·.db)).or (defs n) := by
  induction ts with
  | nil => intro defs n; rfl
  | cons t ts ih =>
    intro defs n
    obtain ⟨h1, h2⟩ := List.pairwise_cons.1 h
    rw [List.foldl_cons, ih h2, List.find?_cons]
    by_cases hn : n = fold t.name
    · have : ts.find? (fun t => fold t.name == n) = none := by
        rw [List.find?_eq_none]
        intro x hx
        have := h1 x hx
        simp only [beq_iff_eq]
        intro he
        exact this (by rw [he, hn])
      rw [this]
      simp [hn]
    · have : (fold t.name == n) = false := by simpa using fun h => hn h.symm
      simp only [this, if_neg hn]

private theorem defs_act {v : Time.Env} {P : Db → Prop} {a : Abs} {x : Act} (h : Allowed v P a x) : (a.act v x).defs = defsAfter a.defs x.cmd := by
  cases x with
  | tabs ts => funext n; exact (defs_tabs ts h.2 a.defs n).symm
  | rows k s d => simp only [Abs.act]; split <;> rfl
  | keys ks => rfl
  | one k d => rfl
  | mul k l => rfl

private theorem safe_act {v : Time.Env} {P : Db → Prop} {a : Abs} {x : Act} (h : Allowed v P a x) : Safe v P a.defs x.cmd := by
  cases x with
  | tabs ts => exact h.1
  | rows k s d => exact ⟨h.1, h.2.2⟩
  | keys ks => trivial
  | one k d => exact h
  | mul k l => exact h

private theorem safe_acts {v : Time.Env} {P : Db → Prop} (as : List Act) : ∀ {a : Abs}, (∀ (pre : List Act) (x : Act) (post : List Act), as = pre ++ x :: post → Allowed v P (a.acts v pre) x) →
    ∀ (pre : List Cmd) (x : Cmd) (post : List Cmd), as.map Act.cmd = pre ++ x :: post → Safe v P (pre.foldl defsAfter a.defs) x := by
  induction as with
  | nil => intro a _ pre x post he; cases pre <;> cases he
  | cons y ys ih =>
    intro a ok pre x post he
    have hy : Allowed v P a y := ok [] y ys rfl
    cases pre with
    | nil => cases he; exact safe_act hy
    | cons z pre =>
      obtain ⟨rfl, he2⟩ := List.cons.inj he
      have := ih (a := a.act v y) (fun pre x post he => ok (y :: pre) x post (by rw [he]; rfl)) pre x post he2
      rw [defs_act hy] at this
      exact this

/-! ### C104 -/

/-- C104: a writer that is opened on a database of any history, used for any calls in any order and closed does nothing undefined,
as long as tables are defined of known kinds and records fit the current definition of their table.  The sizes of the files do
not matter.  Missing: definitions in which a field comes twice and blocks without records, see the theorems `C104_violated_…`,
and records with times that are no dates. -/
theorem C104_writer_partial {lib : Lib} {v : Time.Env} {P : Db → Prop} (ht : lib.trace = false) (L : Restores lib) (T : Readable lib P) (K : Tables P) {d : Disk} {a : Abs}
    (h : MHist lib v P d a) {cs : List Cmd}
    (ok : ∀ (pre : List Cmd) (x : Cmd) (post : List Cmd), cs = pre ++ x :: post → Safe v P (pre.foldl defsAfter a.defs) x) :
    ∃ d', session lib v d cs = some d' := by
  obtain ⟨⟨m, S, h1, h2⟩, _⟩ := mhist_rel ht L T K h
  exact session_defined ht K h1 h2 ok

/-- C104: in particular the sessions of the theorems on what readers get are there: whatever calls are allowed, the session comes
to its end, and if the files are not too large it is a session of a history. -/
theorem C104_session_partial {lib : Lib} {v : Time.Env} {P : Db → Prop} (ht : lib.trace = false) (L : Restores lib) (T : Readable lib P) (K : Tables P) {d : Disk} {a : Abs}
    (h : Hist lib v P d a) {as : List Act}
    (ok : ∀ (pre : List Act) (x : Act) (post : List Act), as = pre ++ x :: post → Allowed v P (a.acts v pre) x) :
    ∃ d', session lib v d (as.map Act.cmd) = some d' ∧ (Moderate d' → Hist lib v P d' (a.acts v as)) := by
  obtain ⟨d', hd⟩ := C104_writer_partial ht L T K (hist_mhist h) (safe_acts as ok)
  exact ⟨d', hd, fun hm => .session h ⟨ok, hd, hm⟩⟩

namespace Sample

/-- Calls on the database of two sessions: a table is defined anew, records of a key that was not declared, a mark removed. -/
def more : List Cmd := [.tabs [⟨b "Info", secDb⟩], .rows (b "new") (b "info") (leBytes 8 1622940000), .one (b "k3") [1, 2], .remove (b "k1") (some (b "day")) false 2021,
  .rows (b "k1") (b "nothing") [1]]

theorem more_ok : ∀ (pre : List Cmd) (x : Cmd) (post : List Cmd), more = pre ++ x :: post → Safe env (· ∈ dbs) (pre.foldl defsAfter abs2.defs) x := by
  have key : ∀ {k : Bytes}, (k ≠ [] ∧ (44 : UInt8) ∉ k ∧ (46 : UInt8) ∉ k ∧ k.head?.all (fun c => decide (32 < c)) = true ∧ k.getLast?.all (fun c => decide (32 < c)) = true ∧
    k.length ≤ 127 ∧ fold k ≠ "_keys_".toUTF8.toList ∧ fold k ≠ "_sdbs_".toUTF8.toList) → KeyName k := key_of
  intro pre x post h
  unfold more at h
  rcases pre with _ | ⟨p1, pre⟩
  · cases h
    intro t ht
    rw [List.mem_singleton.1 ht]
    exact ⟨⟨by decide +kernel, by decide +kernel, by decide +kernel⟩, by decide +kernel⟩
  rcases pre with _ | ⟨p2, pre⟩
  · cases h
    refine ⟨key (by decide +kernel), ⟨by decide +kernel, by decide +kernel, by decide +kernel⟩, fun db hdb => ?_⟩
    have : (List.foldl defsAfter abs2.defs [Cmd.tabs [⟨b "Info", secDb⟩]]) (fold (b "info")) = some secDb := by decide +kernel
    rw [this] at hdb
    cases hdb
    exact block_of (f := (timeField secDb).getD ⟨[], .int, 0, 0, 0, 0, false, false⟩) (by decide +kernel) (by decide +kernel)
  rcases pre with _ | ⟨p3, pre⟩
  · cases h
    exact ⟨key (by decide +kernel), by decide⟩
  rcases pre with _ | ⟨p4, pre⟩
  · cases h; trivial
  rcases pre with _ | ⟨p5, pre⟩
  · cases h
    refine ⟨key (by decide +kernel), ⟨by decide +kernel, by decide +kernel, by decide +kernel⟩, fun db hdb => ?_⟩
    have : (List.foldl defsAfter abs2.defs [Cmd.tabs [⟨b "Info", secDb⟩], .rows (b "new") (b "info") (leBytes 8 1622940000), .one (b "k3") [1, 2], .remove (b "k1") (some (b "day")) false 2021])
      (fold (b "nothing")) = none := by decide +kernel
    rw [this] at hdb
    cases hdb
  · have := congrArg List.length h
    simp at this

end Sample

open Sample in
example : MHist (lib false) env (· ∈ dbs) disk2 abs2 ∧ (∀ (pre : List Cmd) (x : Cmd) (post : List Cmd), more = pre ++ x :: post → Safe env (· ∈ dbs) (pre.foldl defsAfter abs2.defs) x) ∧
    (session (lib false) env disk2 more).isSome = true :=
  ⟨hist_mhist hist2, more_ok, by decide +kernel⟩

open Sample in
/-- C104: a block without records for a table with times makes the program read in front of it. -/
theorem C104_violated_empty : session (lib false) env {} [.keys (b "a"), .tabs [⟨b "day", dayDb⟩], .rows (b "a") (b "day") []] = none := by decide +kernel

open Sample in
/-- C104: a definition in which the field with the time comes twice leaves the table with a field that was freed, which is used
when the table is given to a writer with records. -/
theorem C104_violated_twice : ∃ db, Dyn.create [⟨some (b "t"), some .tsec, 8, 1, false, 0, false⟩, ⟨some (b "t"), some .tsec, 8, 1, false, 0, false⟩] = some (some db) ∧
    session (lib false) env {} [.keys (b "a"), .tabs [⟨b "x", db⟩], .rows (b "a") (b "x") (leBytes 8 1622940000 ++ leBytes 8 1622940000)] = none :=
  ⟨made [⟨some (b "t"), some .tsec, 8, 1, false, 0, false⟩, ⟨some (b "t"), some .tsec, 8, 1, false, 0, false⟩], by decide +kernel, by decide +kernel⟩

end Sis.Sdb
