import Verif.Sdb.WriterSpec
import Verif.Sdb.Sample
import Verif.Sdb.Refine
/- A database used in two sessions, for the concrete cases beside the theorems. -/
namespace Sis.Sdb.Sample
open Sis Sis.Sdb
open Sis.Dyn (Db)

def env : Time.Env := ⟨28800, 1622790000⟩

theorem restores (t : Bool) : Restores (lib t) := fun x z h => (lib_zip t).back x z h

theorem readable (t : Bool) : Readable (lib t) (· ∈ dbs) :=
  fun ts hne h => (lib_text t).back ts hne fun x hx => ⟨⟨(h x hx).1.ne, (h x hx).1.len, (h x hx).1.plain⟩, (h x hx).2⟩

theorem tables : Tables (· ∈ dbs) where
  size := by
    have : ∀ db ∈ dbs, 0 < db.size ∧ db.size < 2 ^ 16 := by decide +kernel
    exact this
  time := by
    have : ∀ db ∈ dbs, db.time.isSome = true → (timeField db).any (fun f => (Dyn.unitOf f.style).isSome &&
        (f.len == 1 || f.len == 2 || f.len == 4 || f.len == 8) && decide (f.offset + f.len ≤ db.size)) = true := by decide +kernel
    intro db h ht
    have := this db h ht
    rw [Option.any_eq_true] at this
    obtain ⟨f, h1, h2⟩ := this
    simp only [Bool.and_eq_true, Bool.or_eq_true, beq_iff_eq, decide_eq_true_eq] at h2
    exact ⟨f, h1, h2.1.1, by obtain ⟨⟨_, h3⟩, _⟩ := h2; omega, h2.2⟩
  same := by
    have : ∀ a ∈ dbs, ∀ b ∈ dbs, a.fields.map (fun e => Dyn.unit a e.2) = b.fields.map (fun e => Dyn.unit b e.2) →
      a.size = b.size ∧ a.time.map (Dyn.unit a) = b.time.map (Dyn.unit b) := by decide +kernel
    intro a b ha hb h
    exact this a ha b hb h

theorem key_of {k : Bytes} (h : k ≠ [] ∧ (44 : UInt8) ∉ k ∧ (46 : UInt8) ∉ k ∧ k.head?.all (fun c => decide (32 < c)) = true ∧ k.getLast?.all (fun c => decide (32 < c)) = true ∧
    k.length ≤ 127 ∧ fold k ≠ "_keys_".toUTF8.toList ∧ fold k ≠ "_sdbs_".toUTF8.toList) : KeyName k := by
  obtain ⟨h1, h2, h3, h4, h5, h6, h7, h8⟩ := h
  refine ⟨h1, h2, h3, ?_, ?_, h6, h7, h8⟩
  · intro c hc; rw [hc] at h4; simpa using h4
  · intro c hc; rw [hc] at h5; simpa using h5

theorem block_of {v : Time.Env} {db : Db} {d : Bytes} {f : Dyn.Field} (hf : timeField db = some f)
    (h : d ≠ [] ∧ d.length % db.size = 0 ∧ d.length < 2 ^ 31 ∧
      (∀ r ∈ recordsOf db d, 0 < timeOf f r ∧ timeOf f r < 2 ^ 53 ∧ (dayOf v f (timeOf f r)).any (fun n => decide (10000 ≤ n) && decide (n < 10 ^ 8)) = true) ∧
      (recordsOf db d).Pairwise (fun x y => timeOf f x ≤ timeOf f y ∧ (dayOf v f (timeOf f x)).getD 0 ≤ (dayOf v f (timeOf f y)).getD 0) ∧
      ((∀ r ∈ recordsOf db d, timeOf f r < 2 ^ 31) ∨ ∀ r ∈ recordsOf db d, ∀ r' ∈ recordsOf db d, placeOf v f r = placeOf v f r')) : BlockOk v db d := by
  obtain ⟨h1, h2, h3, h4, h5, h6⟩ := h
  refine ⟨h1, h2, h3, ?_, ?_, ?_⟩
  · intro f' hf' r hr
    rw [hf] at hf'; cases hf'
    obtain ⟨a1, a2, a3⟩ := h4 r hr
    rw [Option.any_eq_true] at a3
    obtain ⟨n, hn, hb⟩ := a3
    simp only [Bool.and_eq_true, decide_eq_true_eq] at hb
    exact ⟨a1, a2, n, hn, hb⟩
  · intro f' hf'
    rw [hf] at hf'; cases hf'
    refine h5.imp fun hx => ⟨hx.1, fun m n hm hn => ?_⟩
    have := hx.2
    rw [hm, hn] at this
    exact this
  · intro f' hf'
    rw [hf] at hf'; cases hf'
    exact h6

theorem block_nots {v : Time.Env} {db : Db} {d : Bytes} (hf : timeField db = none) (h : d ≠ [] ∧ d.length % db.size = 0 ∧ d.length < 2 ^ 31) : BlockOk v db d :=
  ⟨h.1, h.2.1, h.2.2, (fun f hx => by rw [hf] at hx; cases hx), (fun f hx => by rw [hf] at hx; cases hx), (fun f hx => by rw [hf] at hx; cases hx)⟩

theorem ok_nil {v : Time.Env} {P : Db → Prop} {a : Abs} : ∀ (pre : List Act) (x : Act) (post : List Act), [] = pre ++ x :: post → Allowed v P (a.acts v pre) x :=
  fun pre x post h => by cases pre <;> cases h

theorem ok_cons {v : Time.Env} {P : Db → Prop} {a : Abs} {y : Act} {ys : List Act} (h : Allowed v P a y)
    (g : ∀ (pre : List Act) (x : Act) (post : List Act), ys = pre ++ x :: post → Allowed v P ((a.act v y).acts v pre) x) :
    ∀ (pre : List Act) (x : Act) (post : List Act), y :: ys = pre ++ x :: post → Allowed v P (a.acts v pre) x := by
  intro pre x post he
  cases pre with
  | nil => cases he; exact h
  | cons z pre => cases he; exact g pre x post rfl

/-- A record of `dayDb`. -/
def dayRow (d v : Nat) : Bytes := leBytes 4 d ++ leBytes 4 v
/-- A record of `secDb`. -/
def secRow (t : Nat) : Bytes := leBytes 8 t

theorem moderate_of {d : Disk} (h : d.main.all (fun x => decide (x.length + 48 ≤ 16777216)) = true ∧
    d.units.all (fun e => decide (e.2.1.length < 2 ^ 32) && decide (e.2.2.length ≤ 16777216)) = true) : Moderate d := by
  obtain ⟨h1, h2⟩ := h
  refine ⟨?_, ?_⟩
  · intro x hx
    rw [hx] at h1
    have : x.length + 48 ≤ 16777216 := by simpa using h1
    exact Disk.readable_small (by omega)
  · intro u f hu
    unfold Disk.unit at hu
    obtain ⟨e, he, hf⟩ := Option.map_eq_some_iff.1 hu
    have := List.all_eq_true.1 h2 e (List.mem_of_find?_eq_some he)
    simp only [Bool.and_eq_true, decide_eq_true_eq] at this
    rw [← hf]
    exact ⟨this.1, Disk.readable_small this.2⟩

def acts1 : List Act :=
  [.keys [b "k1", b "k2"], .tabs [⟨b "day", dayDb⟩, ⟨b "sec", secDb⟩, ⟨b "info", infoDb⟩], .one (b "k1") [1, 2, 3], .mul (b "k2") [[1], [], [2, 3]],
   .rows (b "k1") (b "day") (dayRow 20201231 1 ++ dayRow 20210104 2), .rows (b "k1") (b "info") [1, 2, 3, 4]]
def acts2 : List Act := [.one (b "K1") [9], .rows (b "k2") (b "sec") (secRow 1622940000 ++ secRow 1623026400), .rows (b "k1") (b "DAY") (dayRow 20210105 3)]

def disk1 : Disk := (session (lib false) env {} (acts1.map Act.cmd)).getD {}
def disk2 : Disk := (session (lib false) env disk1 (acts2.map Act.cmd)).getD {}

def abs1 : Abs := ({} : Abs).acts env acts1
def abs2 : Abs := abs1.acts env acts2

def dayField : Dyn.Field := ((timeField dayDb).getD ⟨[], .char, 0, 0, 0, 0, false, false⟩)
def secField : Dyn.Field := ((timeField secDb).getD ⟨[], .char, 0, 0, 0, 0, false, false⟩)

theorem key1 : KeyName (b "k1") := key_of (by decide +kernel)
theorem key2 : KeyName (b "k2") := key_of (by decide +kernel)
theorem key1' : KeyName (b "K1") := key_of (by decide +kernel)
theorem tabDay : TabName (b "day") := ⟨by decide +kernel, by decide +kernel, by decide +kernel⟩
theorem tabDay' : TabName (b "DAY") := ⟨by decide +kernel, by decide +kernel, by decide +kernel⟩
theorem tabSec : TabName (b "sec") := ⟨by decide +kernel, by decide +kernel, by decide +kernel⟩
theorem tabInfo : TabName (b "info") := ⟨by decide +kernel, by decide +kernel, by decide +kernel⟩

theorem dayField_eq : timeField dayDb = some dayField := by decide +kernel
theorem secField_eq : timeField secDb = some secField := by decide +kernel

theorem keys1 (a : Abs) : Allowed env (· ∈ dbs) a (.keys [b "k1", b "k2"]) := by
  intro k hk
  simp only [List.mem_cons, List.not_mem_nil, or_false] at hk
  rcases hk with rfl | rfl
  · exact key1
  · exact key2

theorem tabs1 (a : Abs) : Allowed env (· ∈ dbs) a (.tabs [⟨b "day", dayDb⟩, ⟨b "sec", secDb⟩, ⟨b "info", infoDb⟩]) := by
  refine ⟨?_, by decide +kernel⟩
  intro t ht
  simp only [List.mem_cons, List.not_mem_nil, or_false] at ht
  rcases ht with rfl | rfl | rfl
  · exact ⟨tabDay, by decide +kernel⟩
  · exact ⟨tabSec, by decide +kernel⟩
  · exact ⟨tabInfo, by decide +kernel⟩

/-- Records of the tables may be written when keys and tables are declared. -/
theorem rows_ok {a : Abs} {k s d : Bytes} {db : Db} (hk : KeyName k) (hd : a.keys (fold k)) (hs : TabName s) (hdb : a.defs (fold s) = some db) (hb : BlockOk env db d) :
    Allowed env (· ∈ dbs) a (.rows k s d) :=
  ⟨hk, hd, hs, fun x hx => by rw [hdb] at hx; cases hx; exact hb⟩

theorem keeps {v : Time.Env} {a : Abs} {n : Bytes} (x : Act) (h : a.keys n) : (a.act v x).keys n := by
  cases x with
  | keys ks => exact Or.inl h
  | tabs ts => exact h
  | one k d => exact Or.inl h
  | mul k l => exact Or.inl h
  | rows k s d => simp only [Abs.act]; split <;> exact h

theorem declared (a : Abs) : (a.act env (.keys [b "k1", b "k2"])).keys (fold (b "k1")) ∧ (a.act env (.keys [b "k1", b "k2"])).keys (fold (b "k2")) :=
  ⟨Or.inr (by simp), Or.inr (by simp)⟩

theorem ok1 : ∀ (pre : List Act) (x : Act) (post : List Act), acts1 = pre ++ x :: post → Allowed env (· ∈ dbs) (({} : Abs).acts env pre) x :=
  ok_cons (keys1 _) <| ok_cons (tabs1 _) <| ok_cons ⟨key1, by decide +kernel⟩ <| ok_cons ⟨key2, by decide +kernel, by decide +kernel⟩ <|
  ok_cons (rows_ok key1 (keeps _ (keeps _ (keeps _ (declared _).1))) tabDay (by decide +kernel) (block_of dayField_eq (by decide +kernel))) <|
  ok_cons (rows_ok (db := infoDb) key1 (keeps _ (keeps _ (keeps _ (keeps _ (declared _).1)))) tabInfo (by decide +kernel) (block_nots (by decide +kernel) (by decide +kernel))) ok_nil

theorem keeps_all {v : Time.Env} {n : Bytes} (as : List Act) : ∀ {a : Abs}, a.keys n → (a.acts v as).keys n := by
  induction as with
  | nil => intro a h; exact h
  | cons x as ih => intro a h; exact ih (keeps x h)

theorem has1 : abs1.keys (fold (b "k1")) ∧ abs1.keys (fold (b "k2")) :=
  ⟨keeps_all acts1.tail (declared {}).1, keeps_all acts1.tail (declared {}).2⟩

theorem ok2 : ∀ (pre : List Act) (x : Act) (post : List Act), acts2 = pre ++ x :: post → Allowed env (· ∈ dbs) (abs1.acts env pre) x :=
  ok_cons ⟨key1', by decide +kernel⟩ <|
  ok_cons (rows_ok key2 (keeps _ has1.2) tabSec (by decide +kernel) (block_of secField_eq (by decide +kernel))) <|
  ok_cons (rows_ok key1 (keeps _ (keeps _ has1.1)) tabDay' (by decide +kernel) (block_of dayField_eq (by decide +kernel))) ok_nil

theorem run_of {d : Disk} {cs : List Cmd} (h : (session (lib false) env d cs).isSome = true) : session (lib false) env d cs = some ((session (lib false) env d cs).getD {}) := by
  obtain ⟨x, hx⟩ := Option.isSome_iff_exists.1 h
  rw [hx]; rfl

theorem session1 : Session (lib false) env (· ∈ dbs) {} {} acts1 disk1 := ⟨ok1, run_of (by decide +kernel), moderate_of (by decide +kernel)⟩
theorem session2 : Session (lib false) env (· ∈ dbs) disk1 abs1 acts2 disk2 := ⟨ok2, run_of (by decide +kernel), moderate_of (by decide +kernel)⟩

theorem hist1 : Hist (lib false) env (· ∈ dbs) disk1 abs1 := Hist.new.session session1
theorem hist2 : Hist (lib false) env (· ∈ dbs) disk2 abs2 := hist1.session session2

end Sis.Sdb.Sample
