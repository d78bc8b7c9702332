import Verif.Sdb.FileLemmas
import Verif.Sdb.TabTheorems
/- A library and tables for the concrete cases beside the theorems. -/
namespace Sis.Sdb.Sample
open Sis Sis.Disk Sis.Sdb
open Sis.Dyn (Db)

/-- ASCII text as bytes. -/
def b (s : String) : Bytes := s.toUTF8.toList

/-- The table made of fields. -/
def made (ds : List Dyn.Def) : Db := ((Dyn.create ds).join).getD ⟨[], [], 0, none, none⟩

/-- A date of 4 bytes and a number of 4 bytes. -/
def dayDb : Db := made [⟨some (b "d"), some .date, 4, 1, false, 0, false⟩, ⟨some (b "v"), some .int, 4, 1, false, 0, false⟩]
/-- A time in seconds of 8 bytes. -/
def secDb : Db := made [⟨some (b "t"), some .tsec, 8, 1, false, 0, false⟩]
/-- A time in milliseconds of 8 bytes. -/
def msDb : Db := made [⟨some (b "t"), some .msec, 8, 1, false, 0, false⟩]
/-- A text of 4 bytes. -/
def infoDb : Db := made [⟨some (b "n"), some .char, 4, 1, false, 0, false⟩]

def dbs : List Db := [dayDb, secDb, msDb, infoDb]

/-- A compression that adds a byte, and the text the program makes of tables. -/
def lib (trace : Bool) : Lib where
  compress x := some (1 :: x)
  uncompress x := some (x.drop 1)
  text ts := (tabText ts).getD []
  parse s := (textTabs s).getD []
  trace := trace

theorem lib_zip (t : Bool) : ZipOk (lib t) := ⟨by intro b z h; simp [lib] at h; subst h; simp [lib]⟩

theorem lib_real (t : Bool) : Real (lib t) :=
  ⟨fun _ _ h => by simp [lib, h], fun _ _ h => by simp [lib, h]⟩

theorem field_ok {n : Bytes} {st : Dyn.St} {len : Nat} (h1 : n ≠ [] ∧ n.length ≤ 31 ∧ ∀ c ∈ n, 32 ≤ c ∧ c ≠ 34 ∧ c ≠ 92) (h2 : 1 ≤ len ∧ len ≤ 65535) :
    FieldOk ⟨some n, some st, len, 1, false, 0, false⟩ :=
  ⟨⟨n, rfl, h1.1, h1.2.1, h1.2.2⟩, ⟨by simp, by simp, by show (1 : Int) ≤ len; omega, by show (len : Int) ≤ 65535; omega, by show (1 : Int) ≤ 1; omega, by show (1 : Int) ≤ 65535; omega⟩, by show (0 : Int) ≤ 0 ∧ (0 : Int) ≤ 255; omega⟩

theorem dbs_usual {db : Db} (h : db ∈ dbs) : Usual db := by
  simp only [dbs, List.mem_cons, List.not_mem_nil, or_false] at h
  rcases h with rfl | rfl | rfl | rfl
  · refine ⟨[⟨some (b "d"), some .date, 4, 1, false, 0, false⟩, ⟨some (b "v"), some .int, 4, 1, false, 0, false⟩], ⟨?_, by decide +kernel, by decide +kernel⟩, by decide +kernel, ?_⟩
    · intro d hd
      simp only [List.mem_cons, List.not_mem_nil, or_false] at hd
      rcases hd with rfl | rfl
      · exact field_ok (by decide +kernel) (by decide)
      · exact field_ok (by decide +kernel) (by decide)
    · intro d hd _
      simp only [List.mem_cons, List.not_mem_nil, or_false] at hd
      rcases hd with rfl | rfl <;> simp
  · refine ⟨[⟨some (b "t"), some .tsec, 8, 1, false, 0, false⟩], ⟨?_, by decide +kernel, by decide +kernel⟩, by decide +kernel, ?_⟩
    · intro d hd
      rw [List.mem_singleton.1 hd]
      exact field_ok (by decide +kernel) (by decide)
    · intro d hd _
      rw [List.mem_singleton.1 hd]
      simp
  · refine ⟨[⟨some (b "t"), some .msec, 8, 1, false, 0, false⟩], ⟨?_, by decide +kernel, by decide +kernel⟩, by decide +kernel, ?_⟩
    · intro d hd
      rw [List.mem_singleton.1 hd]
      exact field_ok (by decide +kernel) (by decide)
    · intro d hd _
      rw [List.mem_singleton.1 hd]
      simp
  · refine ⟨[⟨some (b "n"), some .char, 4, 1, false, 0, false⟩], ⟨?_, by decide +kernel, by decide +kernel⟩, by decide +kernel, ?_⟩
    · intro d hd
      rw [List.mem_singleton.1 hd]
      exact field_ok (by decide +kernel) (by decide)
    · intro d hd _
      rw [List.mem_singleton.1 hd]
      simp

theorem lib_text (t : Bool) : TextOk (lib t) (· ∈ dbs) :=
  ⟨fun ts hne h => (C82_database_partial (lib_real t)).1 ts hne fun x hx => ⟨⟨(h x hx).1.ne, (h x hx).1.len, (h x hx).1.plain⟩, dbs_usual (h x hx).2⟩⟩

end Sis.Sdb.Sample
