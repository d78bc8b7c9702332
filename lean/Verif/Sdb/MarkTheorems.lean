import Verif.Sdb.RefineHist
import Verif.Sdb.SampleHist
import Verif.Sdb.IndexTheorems
/- C26: marks of presence in the main file of a database on disk. -/
namespace Sis.Sdb
open Sis
open Sis.Dyn (Db getN)

/-- C26: a database that was used in any sessions can be opened, and then reports of every key, or key and table, exactly the
periods for which data was written (0 for data without time), and no removal.  Missing: removals, see `C26_violated_…`. -/
theorem C26_present_partial {lib : Lib} {v : Time.Env} {P : Db → Prop} (ht : lib.trace = false) (L : Restores lib) (T : Readable lib P) (K : Tables P) {d : Disk} {a : Abs}
    (h : Hist lib v P d a) :
    ∃ w, openWriter lib d = some w ∧ (∀ (k : Bytes) (t : Option Bytes) (day : Nat), (46 : UInt8) ∉ k →
        ((∃ e, getN w.main.maps (entryName k t) = some e ∧ e.active = 1 ∧ (day, 1) ∈ e.days) ↔ a.marks (fold k) (t.map fold) day)) ∧
      ∀ e ∈ w.main.maps, e.2.active = 1 ∧ ∀ x ∈ e.2.days, x.2 = 1 := by
  obtain ⟨m, S, h1, h2⟩ := hist_rel ht L T K h
  refine ⟨_, (open_good h1).1, fun k t day hk => ?_, h2.ones⟩
  rw [entryName_eq]
  exact h2.marks k t day hk

section
open Sample

/-- Two sessions with values and records of several years and days. -/
example : Hist (lib false) env (· ∈ dbs) disk2 abs2 ∧
    (openWriter (lib false) disk2).map (fun w => w.main.maps.map fun e => (e.1, e.2.days)) =
      some [(b "k1", [(0, 1)]), (b "k2", [(0, 1)]), (b "k1.day", [(2020, 1), (2021, 1)]), (b "k1.info", [(0, 1)]), (b "k2.sec", [(20210606, 1), (20210607, 1)])] :=
  ⟨hist2, by decide +kernel⟩

private theorem open_of {d : Disk} (h : (openWriter (lib false) d).isSome = true) : openWriter (lib false) d = some ((openWriter (lib false) d).getD ⟨{ kind := .main }, []⟩) := by
  obtain ⟨x, hx⟩ := Option.isSome_iff_exists.1 h
  rw [hx]; rfl

/-- C26 fails for a removal: the mark that was removed is still there when the database is opened again, and there is one with a
day and a mark that nobody wrote. -/
theorem C26_violated_removed : ∃ d w, sessions (lib false) env {} [[.keys (b "a"), .tabs [⟨b "sec", secDb⟩], .rows (b "a") (b "sec") (secRow 1622940000)],
      [.remove (b "a") (some (b "sec")) false 20210606]] = some d ∧ openWriter (lib false) d = some w ∧
    w.main.maps = [(b "a.sec", ⟨1, 0, [(20210606, 1), (174, 253)]⟩)] :=
  ⟨(sessions (lib false) env {} [[.keys (b "a"), .tabs [⟨b "sec", secDb⟩], .rows (b "a") (b "sec") (secRow 1622940000)],
      [.remove (b "a") (some (b "sec")) false 20210606]]).getD {}, _, by
    have : (sessions (lib false) env {} [[.keys (b "a"), .tabs [⟨b "sec", secDb⟩], .rows (b "a") (b "sec") (secRow 1622940000)],
      [.remove (b "a") (some (b "sec")) false 20210606]]).isSome = true := by decide +kernel
    obtain ⟨x, hx⟩ := Option.isSome_iff_exists.1 this
    rw [hx]; rfl, open_of (by decide +kernel), by decide +kernel⟩

/-- C26 fails for the removal of a value: the main file cannot be read any more, while the value still can. -/
theorem C26_violated_value : ∃ d, sessions (lib false) env {} [[.one (b "a") [1]], [.remove (b "a") none false 0]] = some d ∧
    openWriter (lib false) d = none ∧ getOne (lib false) d (b "a") = some (some [1]) :=
  ⟨(sessions (lib false) env {} [[.one (b "a") [1]], [.remove (b "a") none false 0]]).getD {}, by
    have : (sessions (lib false) env {} [[.one (b "a") [1]], [.remove (b "a") none false 0]]).isSome = true := by decide +kernel
    obtain ⟨x, hx⟩ := Option.isSome_iff_exists.1 this
    rw [hx]; rfl, by
    have : ((openWriter (lib false) ((sessions (lib false) env {} [[.one (b "a") [1]], [.remove (b "a") none false 0]]).getD {})).isNone) = true := by decide +kernel
    exact Option.isNone_iff_eq_none.1 this, by decide +kernel⟩

/-- C26 fails for data written again after a removal, even while the writer is open: it stays marked as removed. -/
theorem C26_violated_again : ((openWriter (lib false) {}).bind fun w => cmds (lib false) env {} w [.keys (b "a"), .tabs [⟨b "sec", secDb⟩], .rows (b "a") (b "sec") (secRow 1622940000),
      .remove (b "a") (some (b "sec")) false 20210606, .rows (b "a") (b "sec") (secRow 1622940000)]).map (fun w => w.main.maps) =
    some [(b "a.sec", ⟨1, 0, [(20210606, 0)]⟩)] := by decide +kernel

end
end Sis.Sdb
