import Verif.Sic.ReadLemmas
import Verif.Sno.SnoTheorems
import Verif.Zip.ZipTheorems
/- C101 and C102: what is read from a file that keeps records compressed. -/
namespace Sis.Sic
open Sis Sis.Sdb
open Sis.Sno (Rec star some_part)
open Sis.Dyn (Db)

theorem low_star {x : Bytes} (hx : CStr x) : caseEq x star = true ↔ x = [42] := by
  have hc42 : CStr star := by intro c hc; rw [List.mem_singleton.1 hc]; decide
  rw [Sub.caseEq_low hx hc42]
  have h42 : Sub.low star = [42] := by decide +kernel
  rw [h42]
  constructor
  · intro e
    have hl := congrArg List.length e
    unfold Sub.low at e hl
    rw [List.length_map] at hl
    obtain ⟨c, rfl⟩ := List.length_eq_one_iff.1 hl
    have hc : lower c = 42 := by simpa using e
    have : ∀ n : Fin 256, lower (UInt8.ofNat n.val) = 42 → UInt8.ofNat n.val = 42 := by decide +kernel
    have := this ⟨c.toNat, c.toNat_lt⟩ (by simpa using hc)
    simp at this
    rw [this]
  · rintro rfl; decide +kernel

open Classical in
/-- C101: a subscriber to a file of compressed records hears the records of all sessions in the order in which they were written, those
whose key and table are asked for, with the names under which their key and table were first given and in each field the same number
or text; or, if it ends the subscription, a first part of them.  NULL asks for everything.  Missing: files with a size field that is
read in two pieces of 16 MB, and what `Allowed`, `Moderate` and `Room` leave out, see the theorems below. -/
theorem C101_read_partial {lib : Lib} {v : Time.Env} {P : Db → Prop} {limit : Nat} (T : Readable lib P) {file : Bytes × Bytes} {a : Abs}
    (h : Hist lib v P limit (some file) a) (hlen : Disk.Smooth file.1) (hroom : Room a) (junk : Nat → UInt8) :
    ∃ all, Copies a.tabs all a.recs ∧ ∀ (keys sdbs : Option Bytes) (quit : List Rec → Bool), (0 : UInt8) ∉ keys.getD [] → (0 : UInt8) ∉ sdbs.getD [] →
      ∃ got broke, play lib file keys sdbs quit junk = some (got, broke) ∧ Hears quit (all.filter fun r => Wants (keys.getD [42]) (sdbs.getD [42]) r) got broke := by
  obtain ⟨hn, _, hh⟩ := hist_ok (textOk T) h
  obtain ⟨f, bs, rs, h1, h2, h3, hmod⟩ := hh file rfl
  obtain ⟨n1, n2⟩ := hist_names h
  obtain ⟨outs, g1, g2⟩ := play_ok h2 hn h1 h3 ⟨by have := hmod.body; omega, hlen⟩ hroom junk
  have hc := copies_ok (keys := a.keys) h2.base.tdiff g1 h2.rng
  rw [← h2.recs] at hc
  refine ⟨_, hc, fun keys sdbs quit hk hs => ?_⟩
  obtain ⟨got, broke, e1, e2⟩ := g2 keys sdbs quit
  refine ⟨got, broke, e1, ?_⟩
  have heq : ((outs.flatten.map (named a.keys a.tabs)).filter fun r => decide (Wants (keys.getD [42]) (sdbs.getD [42]) r)) =
      (outs.flatten.map (named a.keys a.tabs)).filter (asks ⟨keys.getD star, sdbs.getD star⟩) := by
    apply List.filter_congr
    intro r hr
    obtain ⟨x, hx, rfl⟩ := List.mem_map.1 hr
    obtain ⟨y, hy, q1, q2, -⟩ := Sno.forall2_left g1 x hx
    obtain ⟨w1, w2⟩ := h2.rng y hy
    rw [← q1] at w1
    rw [← q2] at w2
    have e1 := List.getElem?_eq_getElem w1
    have e2 := List.getElem?_eq_getElem w2
    have hnm : named a.keys a.tabs x = ⟨a.keys[x.1], a.tabs[x.2.1].1, x.2.2⟩ := by unfold named; rw [e1, e2]; rfl
    rw [hnm]
    have hgk := h2.base.inv.knames a.keys[x.1] (by rw [h2.base.keys]; exact List.getElem_mem w1)
    have hgs := (h2.base.inv.snames (a.tabs[x.2.1].1, [a.tabs[x.2.1].2]) (by
      rw [h2.base.tabs]; exact List.mem_map.2 ⟨_, List.getElem_mem w2, rfl⟩)).1
    have hz := n1 a.keys[x.1] (List.getElem_mem w1)
    have hcm := n2 a.tabs[x.2.1] (List.getElem_mem w2)
    have hkc : CStr a.keys[x.1] := fun c hc e => hz (e ▸ hc)
    have hsc : CStr a.tabs[x.2.1].1 := fun c hc e => by
      have := (hgs.plain c hc).1
      rw [e] at this
      exact absurd this (by decide)
    have hstar : (0 : UInt8) ∉ star := by decide
    have hck : CStr (keys.getD star) := fun c hc e => by
      cases keys with
      | none => exact hstar (e ▸ hc)
      | some k => exact hk (e ▸ hc)
    have hcs : CStr (sdbs.getD star) := fun c hc e => by
      cases sdbs with
      | none => exact hstar (e ▸ hc)
      | some k => exact hs (e ▸ hc)
    have e1 : Sub.half false a.keys[x.1] (some (keys.getD star)) = true ↔ Sub.Half true (Sub.low (keys.getD star)) (Sub.low a.keys[x.1]) := by
      rw [some_part, Sub.half_spec hkc hgk.comma hck]; rfl
    have e2 : Sub.half false a.tabs[x.2.1].1 (some (sdbs.getD star)) = true ↔ Sub.Half true (Sub.low (sdbs.getD star)) (Sub.low a.tabs[x.2.1].1) := by
      rw [some_part, Sub.half_spec hsc hcm hcs]; rfl
    have h42 : Sub.low [42] = [42] := by decide +kernel
    rw [Bool.eq_iff_iff, decide_eq_true_iff]
    unfold Wants asks Want.whole
    simp only [Bool.or_eq_true, Bool.and_eq_true, e1, e2, low_star hck, low_star hcs]
    constructor
    · exact .inr
    · rintro (⟨s1, s2⟩ | s)
      · have s1 : keys.getD [42] = [42] := s1
        have s2 : sdbs.getD [42] = [42] := s2
        rw [s1, s2, h42]
        exact ⟨.inl rfl, .inl rfl⟩
      · exact s
  rw [heq]
  exact e2

/-- C102: a subscriber to a file of compressed records that ends its subscription hears less than 131072 records more, and is told
that it broke off; otherwise it is not told so.  That it hears nothing more does not hold, see `C102_violated_after`. -/
theorem C102_end_partial {lib : Lib} {v : Time.Env} {P : Db → Prop} {limit : Nat} (T : Readable lib P) {file : Bytes × Bytes} {a : Abs}
    (h : Hist lib v P limit (some file) a) (hlen : Disk.Smooth file.1) (hroom : Room a) (junk : Nat → UInt8) {keys sdbs : Option Bytes}
    (hk : (0 : UInt8) ∉ keys.getD []) (hs : (0 : UInt8) ∉ sdbs.getD []) (quit : List Rec → Bool) :
    ∃ got broke, play lib file keys sdbs quit junk = some (got, broke) ∧ (broke = true ↔ ∃ p, p <+: got ∧ quit p = true) ∧
      ∀ p, p <+: got → quit p = true → got.length < p.length + 131072 := by
  obtain ⟨all, _, h2⟩ := C101_read_partial T h hlen hroom junk
  obtain ⟨got, broke, h3, h4⟩ := h2 keys sdbs quit hk hs
  exact ⟨got, broke, h3, h4.told, h4.soon⟩

/-! ### A file used in two sessions -/

namespace Sample
open Sis.Sdb.Sample (lib env b infoDb secDb dayDb dbs readable key_of secRow)
open Sis.Sno.Sample (some_getD tab_of key_a key_ab key_A key_c)

def acts1 : List Sno.Act := [.keys [b "a"], .tabs [⟨b "x", infoDb⟩], .start, .put (b "a") (b "x") (b "abcd"), .put (b "ab") (b "X") (b "efghefgi"), .put (b "A") (b "x") (b "abce"), .stop]

def acts2 : List Sno.Act := [.tabs [⟨b "y", secDb⟩, ⟨b "X", infoDb⟩], .start, .put (b "c") (b "Y") (secRow 1622940000), .put (b "a") (b "x") (b "abcd"), .put (b "a") (b "none") (b "abcd"), .stop]

def file1 : Bytes × Bytes := (session (lib false) env 100 none (acts1.map cmd)).getD ([], [])
def file2 : Bytes × Bytes := (session (lib false) env 100 (some file1) (acts2.map cmd)).getD ([], [])

theorem ok_nil {P : Db → Prop} {a : Abs} : ∀ (pre : List Sno.Act) (x : Sno.Act) (post : List Sno.Act), [] = pre ++ x :: post → Allowed P (a.acts pre) x :=
  fun pre x post h => by cases pre <;> cases h

theorem ok_cons {P : Db → Prop} {a : Abs} {y : Sno.Act} {ys : List Sno.Act} (h : Allowed P a y)
    (g : ∀ (pre : List Sno.Act) (x : Sno.Act) (post : List Sno.Act), ys = pre ++ x :: post → Allowed P ((a.act y).acts pre) x) :
    ∀ (pre : List Sno.Act) (x : Sno.Act) (post : List Sno.Act), y :: ys = pre ++ x :: post → Allowed P (a.acts pre) x := by
  intro pre x post he
  cases pre with
  | nil => cases he; exact h
  | cons z pre => cases he; exact g pre x post rfl

theorem info_plain : Zip.Plain infoDb := by
  refine ⟨.create (ds := [⟨some (b "n"), some .char, 4, 1, false, 0, false⟩]) (by decide +kernel) (by decide +kernel), by decide +kernel, Zip.of_flds ?_⟩
  exact Zip.flds_one (by decide +kernel) (f := ⟨b "n", .char, 4, 1, 0, 0, false, false⟩) (by decide +kernel) (.inr rfl)

theorem sec_plain : Zip.Plain secDb := by
  refine ⟨.create (ds := [⟨some (b "t"), some .tsec, 8, 1, false, 0, false⟩]) (by decide +kernel) (by decide +kernel), by decide +kernel, Zip.of_flds ?_⟩
  exact Zip.flds_one (by decide +kernel) (f := ⟨b "t", .tsec, 8, 1, 0, 0, false, false⟩) (by decide +kernel) (.inl (by unfold Zip.Number; decide))

/-- A record with a text, or with a time before 2^62. -/
def Good (db : Db) (d : Bytes) : Prop := (db = infoDb ∧ d.head?.any (· ≠ 0) = true ∧ d.length = 4) ∨ (db = secDb ∧ leVal d < 2 ^ 62 ∧ d.length = 8)

instance (db : Db) (d : Bytes) : Decidable (Good db d) := by unfold Good; infer_instance

theorem slot_info (d : Bytes) (h : d.length = 4) : Dyn.slot infoDb.size d 0 ⟨b "n", .char, 4, 1, 0, 0, false, false⟩ 0 = d := by
  have hs : infoDb.size = 4 := by decide +kernel
  unfold Dyn.slot
  rw [hs]
  simp [← h]

theorem slot_sec (d : Bytes) (h : d.length = 8) : Dyn.slot secDb.size d 0 ⟨b "t", .tsec, 8, 1, 0, 0, false, false⟩ 0 = d := by
  have hs : secDb.size = 8 := by decide +kernel
  unfold Dyn.slot
  rw [hs]
  simp [← h]

theorem good_follows {db : Db} {a d : Bytes} (h : Good db d) : Zip.Opens db d ∧ (Good db a → Zip.Follows db a d) := by
  have hne : infoDb ≠ secDb := by decide +kernel
  rcases h with ⟨rfl, h1, h2⟩ | ⟨rfl, h1, h2⟩
  · have ht : Zip.text d ≠ [] := by
      cases d with
      | nil => cases h2
      | cons c d =>
        have hc : c ≠ 0 := by simpa using h1
        unfold Zip.text
        rw [List.takeWhile_cons_of_pos (by simpa using hc)]
        simp
    refine ⟨?_, fun _ => ?_⟩
    · intro name f e hf
      revert hf e
      revert name f
      intro name f e hf
      revert e
      refine Zip.of_flds (P := fun f => ∀ e, e < f.count → (f.style = .char → Zip.text (Dyn.slot infoDb.size d 0 f e) ≠ []) ∧ (f.style ≠ .char → f.len = 8 → leVal (Dyn.slot infoDb.size d 0 f e) ≠ 2 ^ 63)) ?_ name f hf
      refine Zip.flds_one (by decide +kernel) (f := ⟨b "n", .char, 4, 1, 0, 0, false, false⟩) (by decide +kernel) ?_
      intro e he
      have : e = 0 := by simp only at he; omega
      subst this
      rw [slot_info d h2]
      exact ⟨fun _ => ht, fun h => absurd rfl h⟩
    · intro name f e hf
      revert e
      refine Zip.of_flds (P := fun f => ∀ e, e < f.count → (f.style = .char → Zip.text (Dyn.slot infoDb.size d 0 f e) = [] → Zip.text (Dyn.slot infoDb.size a 0 f e) = []) ∧
        (f.style ≠ .char → f.len = 8 → leVal (Dyn.slot infoDb.size d 0 f e) ≠ (leVal (Dyn.slot infoDb.size a 0 f e) + 2 ^ 63) % 2 ^ 64)) ?_ name f hf
      refine Zip.flds_one (by decide +kernel) (f := ⟨b "n", .char, 4, 1, 0, 0, false, false⟩) (by decide +kernel) ?_
      intro e he
      have : e = 0 := by simp only at he; omega
      subst this
      rw [slot_info d h2]
      exact ⟨fun _ h => absurd h ht, fun h => absurd rfl h⟩
  · refine ⟨?_, ?_⟩
    · intro name f e hf
      revert e
      refine Zip.of_flds (P := fun f => ∀ e, e < f.count → (f.style = .char → Zip.text (Dyn.slot secDb.size d 0 f e) ≠ []) ∧ (f.style ≠ .char → f.len = 8 → leVal (Dyn.slot secDb.size d 0 f e) ≠ 2 ^ 63)) ?_ name f hf
      refine Zip.flds_one (by decide +kernel) (f := ⟨b "t", .tsec, 8, 1, 0, 0, false, false⟩) (by decide +kernel) ?_
      intro e he
      have : e = 0 := by simp only at he; omega
      subst this
      rw [slot_sec d h2]
      exact ⟨(fun h => by cases h), fun _ _ => by omega⟩
    · intro ha
      have ha : leVal a < 2 ^ 62 ∧ a.length = 8 := by
        rcases ha with ⟨e, _⟩ | ⟨_, h⟩
        · exact absurd e.symm hne
        · exact h
      intro name f e hf
      revert e
      refine Zip.of_flds (P := fun f => ∀ e, e < f.count → (f.style = .char → Zip.text (Dyn.slot secDb.size d 0 f e) = [] → Zip.text (Dyn.slot secDb.size a 0 f e) = []) ∧
        (f.style ≠ .char → f.len = 8 → leVal (Dyn.slot secDb.size d 0 f e) ≠ (leVal (Dyn.slot secDb.size a 0 f e) + 2 ^ 63) % 2 ^ 64)) ?_ name f hf
      refine Zip.flds_one (by decide +kernel) (f := ⟨b "t", .tsec, 8, 1, 0, 0, false, false⟩) (by decide +kernel) ?_
      intro e he
      have : e = 0 := by simp only at he; omega
      subst this
      rw [slot_sec d h2, slot_sec a ha.2]
      refine ⟨(fun h => by cases h), fun _ _ => ?_⟩
      rw [Nat.mod_eq_of_lt (by omega)]
      omega

theorem runs_of {tabs : List (Bytes × Db)} {rs : List Rec} (h : ∀ r ∈ rs, ∀ t ∈ tabs, t.1 = r.tab → Good t.2 r.data) : Runs tabs rs := by
  intro pre r post he db hdb
  have hr := h r (by rw [he]; simp) _ hdb rfl
  refine ⟨(good_follows (a := []) hr).1, fun x hx => (good_follows hr).2 ?_⟩
  unfold lastOf at hx
  obtain ⟨r', h1, rfl⟩ := Option.map_eq_some_iff.1 hx
  have := List.mem_of_getLast? h1
  obtain ⟨m1, m2⟩ := List.mem_filter.1 this
  simp only [Bool.and_eq_true, beq_iff_eq] at m2
  exact h r' (by rw [he]; simp [m1]) _ hdb m2.2.symm

theorem put_of {a : Abs} {k s d : Bytes} (hk : KeyName k) (h : (0 : UInt8) ∉ k ∧ d ≠ [])
    (h1 : a.now.any (fun now => (now ++ a.brings k s d).all fun r => a.tabs.all fun t => t.1 != r.tab || decide (Good t.2 r.data)) = true) : Allowed (· ∈ dbs) a (.put k s d) := by
  rw [Option.any_eq_true] at h1
  obtain ⟨now, h2, h3⟩ := h1
  refine ⟨hk, h.1, h.2, now, h2, runs_of ?_⟩
  intro r hr t ht he
  have := List.all_eq_true.1 (List.all_eq_true.1 h3 r hr) t ht
  simp only [Bool.or_eq_true, bne_iff_ne, decide_eq_true_eq] at this
  rcases this with h | h
  · exact absurd he h
  · exact h

theorem info_short : Short infoDb := by unfold Short; decide +kernel
theorem sec_short : Short secDb := by unfold Short; decide +kernel

theorem session1 : Session (lib false) env (· ∈ dbs) 100 none {} acts1 file1 where
  ok := by
    unfold acts1
    refine ok_cons ?_ (ok_cons ?_ (ok_cons ⟨rfl, by decide +kernel⟩ (ok_cons (put_of key_a (by decide +kernel) (by decide +kernel)) (ok_cons (put_of key_ab (by decide +kernel) (by decide +kernel))
      (ok_cons (put_of key_A (by decide +kernel) (by decide +kernel)) (ok_cons (by decide +kernel : (_ : Abs).now ≠ none) ok_nil))))))
    · refine ⟨rfl, fun k hk => ?_⟩
      rw [List.mem_singleton.1 hk]
      exact ⟨key_a, by decide +kernel⟩
    · refine ⟨rfl, fun t ht => ?_, by decide +kernel⟩
      rw [List.mem_singleton.1 ht]
      exact ⟨tab_of (by decide +kernel), by decide +kernel, by decide +kernel, info_plain, info_short, (by intro o ho; cases ho)⟩
  run := some_getD (by decide +kernel)
  stopped := by decide +kernel
  size := ⟨by decide +kernel, Disk.readable_small (by decide +kernel)⟩

theorem session2 : Session (lib false) env (· ∈ dbs) 100 (some file1) (Abs.acts {} acts1) acts2 file2 where
  ok := by
    unfold acts2
    refine ok_cons ?_ (ok_cons ⟨by decide +kernel, by decide +kernel⟩ (ok_cons (put_of key_c (by decide +kernel) (by decide +kernel)) (ok_cons (put_of key_a (by decide +kernel) (by decide +kernel))
      (ok_cons (put_of key_a (by decide +kernel) (by decide +kernel)) (ok_cons (by decide +kernel : (_ : Abs).now ≠ none) ok_nil)))))
    refine ⟨by decide +kernel, fun t ht => ?_, by decide +kernel⟩
    simp only [List.mem_cons, List.not_mem_nil, or_false] at ht
    rcases ht with rfl | rfl
    · exact ⟨tab_of (by decide +kernel), by decide +kernel, by decide +kernel, sec_plain, sec_short, by decide +kernel⟩
    · exact ⟨tab_of (by decide +kernel), by decide +kernel, by decide +kernel, info_plain, info_short, by decide +kernel⟩
  run := some_getD (by decide +kernel)
  stopped := by decide +kernel
  size := ⟨by decide +kernel, Disk.readable_small (by decide +kernel)⟩

/-- C101, C102: keys, tables and records of two sessions. -/
theorem hist2 : Hist (lib false) env (· ∈ dbs) 100 (some file2) (Abs.acts (Abs.acts {} acts1) acts2) := .session (.session .new session1) session2

example : Readable (lib false) (· ∈ dbs) := readable false

example : (Abs.acts (Abs.acts {} acts1) acts2).recs = [⟨b "a", b "x", b "abcd"⟩, ⟨b "ab", b "x", b "efgh"⟩, ⟨b "ab", b "x", b "efgi"⟩, ⟨b "a", b "x", b "abce"⟩,
    ⟨b "c", b "y", secRow 1622940000⟩, ⟨b "a", b "x", b "abcd"⟩] ∧ Disk.Smooth file2.1 ∧ Room (Abs.acts (Abs.acts {} acts1) acts2) :=
  ⟨by decide +kernel, Disk.smooth_small (by decide +kernel), by unfold Room; decide +kernel⟩

example : play (lib false) file2 none none (fun _ => false) (fun _ => 7) = some ([⟨b "a", b "x", b "abcd"⟩, ⟨b "ab", b "x", b "efgh"⟩, ⟨b "ab", b "x", b "efgi"⟩, ⟨b "a", b "x", b "abce"⟩,
    ⟨b "c", b "y", secRow 1622940000⟩, ⟨b "a", b "x", b "abcd"⟩], false) := by decide +kernel

/-- A list of one key and one of one table. -/
example : play (lib false) file2 (some (b "A")) (some (b "x,z")) (fun l => l.length == 4) (fun _ => 7) = some ([⟨b "a", b "x", b "abcd"⟩, ⟨b "ab", b "x", b "efgh"⟩,
    ⟨b "ab", b "x", b "efgi"⟩, ⟨b "a", b "x", b "abce"⟩], true) := by decide +kernel

end Sample

/-! ### What is left out -/

section
open Sis.Sdb.Sample (lib env b infoDb secDb dayDb)
open Sis.Sno.Sample (some_getD)

/-- C102 fails as it stands: a subscriber that ends its subscription with the first record hears the next ones of the block. -/
theorem C102_violated_after : ∃ f, session (lib false) env 100 none [.keys (b "a"), .tabs [⟨b "x", infoDb⟩], .start, .put (b "a") (b "x") (b "abcd"), .put (b "a") (b "x") (b "efgh"), .stop] = some f ∧
    play (lib false) f none none (fun l => l.length == 1) (fun _ => 0) = some ([⟨b "a", b "x", b "abcd"⟩, ⟨b "a", b "x", b "efgh"⟩], true) :=
  ⟨_, some_getD (by decide +kernel), by decide +kernel⟩

/-- C101 fails for a table that is given after writing was started: its records are lost, and no error is reported. -/
theorem C101_violated_table : ∃ f, session (lib false) env 100 none [.keys (b "a"), .tabs [⟨b "x", infoDb⟩], .start, .tabs [⟨b "y", infoDb⟩], .put (b "a") (b "x") (b "abcd"),
      .put (b "a") (b "y") (b "efgh"), .stop] = some f ∧
    play (lib false) f none none (fun _ => false) (fun _ => 0) = some ([⟨b "a", b "x", b "abcd"⟩], false) :=
  ⟨_, some_getD (by decide +kernel), by decide +kernel⟩

/-- C101 fails for a key that is listed after writing was started: its records are lost, and no error is reported. -/
theorem C101_violated_key : ∃ f, session (lib false) env 100 none [.keys (b "a"), .tabs [⟨b "x", infoDb⟩], .start, .keys (b "c"), .put (b "a") (b "x") (b "abcd"),
      .put (b "c") (b "x") (b "efgh"), .stop] = some f ∧
    play (lib false) f none none (fun _ => false) (fun _ => 0) = some ([⟨b "a", b "x", b "abcd"⟩], false) :=
  ⟨_, some_getD (by decide +kernel), by decide +kernel⟩

/-- C101 fails if there is no table when writing is started: the records of all tables given later are lost. -/
theorem C101_violated_none : ∃ f, session (lib false) env 100 none [.keys (b "a"), .start, .tabs [⟨b "x", infoDb⟩], .put (b "a") (b "x") (b "abcd"), .stop] = some f ∧
    play (lib false) f none none (fun _ => false) (fun _ => 0) = some ([], false) :=
  ⟨_, some_getD (by decide +kernel), by decide +kernel⟩

/-- C101 fails when the writer is closed without a stop: the records of the last block are lost, and no error is reported. -/
theorem C101_violated_unstopped : ∃ f, session (lib false) env 100 none [.keys (b "a"), .tabs [⟨b "x", infoDb⟩], .start, .put (b "a") (b "x") (b "abcd")] = some f ∧
    play (lib false) f none none (fun _ => false) (fun _ => 0) = some ([], false) :=
  ⟨_, some_getD (by decide +kernel), by decide +kernel⟩

/-- C101 fails when writing is started again without a stop: the records that are not in the file yet are lost. -/
theorem C101_violated_restart : ∃ f, session (lib false) env 100 none [.keys (b "a"), .tabs [⟨b "x", infoDb⟩], .start, .put (b "a") (b "x") (b "abcd"), .start,
      .put (b "a") (b "x") (b "efgh"), .stop] = some f ∧
    play (lib false) f none none (fun _ => false) (fun _ => 0) = some ([⟨b "a", b "x", b "efgh"⟩], false) :=
  ⟨_, some_getD (by decide +kernel), by decide +kernel⟩

/-- C101 fails when a table gets another definition in a later session: the older records can not be read. -/
theorem C101_violated_redefined : ∃ f g, session (lib false) env 100 none [.keys (b "a"), .tabs [⟨b "x", infoDb⟩], .start, .put (b "a") (b "x") (b "abcd"), .put (b "a") (b "x") (b "efgh"), .stop] = some f ∧
    session (lib false) env 100 (some f) [.tabs [⟨b "x", secDb⟩]] = some g ∧ play (lib false) g none none (fun _ => false) (fun _ => 0) = none :=
  ⟨_, _, some_getD (by decide +kernel), some_getD (by decide +kernel), by decide +kernel⟩

/-- C101 fails for a text that becomes empty: it is read as it was before. -/
theorem C101_violated_text : ∃ f, session (lib false) env 100 none [.keys (b "a"), .tabs [⟨b "x", infoDb⟩], .start, .put (b "a") (b "x") (b "abcd"), .put (b "a") (b "x") [0, 0, 0, 0], .stop] = some f ∧
    play (lib false) f none none (fun _ => false) (fun _ => 0) = some ([⟨b "a", b "x", b "abcd"⟩, ⟨b "a", b "x", b "abcd"⟩], false) :=
  ⟨_, some_getD (by decide +kernel), by decide +kernel⟩

/-- A text of 16200 bytes. -/
def longDb : Dyn.Db := Sis.Sdb.Sample.made [⟨some (b "n"), some .char, 16200, 1, false, 0, false⟩]

/-- C101 fails for records of more than 16120 bytes: they are lost, and no error is reported. -/
theorem C101_violated_long : ∃ f, session (lib false) env 100 none [.keys (b "a"), .tabs [⟨b "x", infoDb⟩, ⟨b "y", longDb⟩], .start, .put (b "a") (b "x") (b "abcd"),
      .put (b "a") (b "y") (List.replicate 16200 65), .stop] = some f ∧
    play (lib false) f none none (fun _ => false) (fun _ => 0) = some ([⟨b "a", b "x", b "abcd"⟩], false) :=
  ⟨_, some_getD (by decide +kernel), by decide +kernel⟩

/-- C101: a write after the stop uses a compressor that is gone, and one of no bytes to a table with a time reads in front of the buffer. -/
theorem C101_violated_undefined : session (lib false) env 100 none [.keys (b "a"), .tabs [⟨b "x", infoDb⟩], .start, .stop, .put (b "a") (b "x") (b "abcd")] = none ∧
    session (lib false) env 100 none [.keys (b "a"), .tabs [⟨b "x", dayDb⟩], .start, .put (b "a") (b "x") [], .stop] = none := by decide +kernel

end

end Sis.Sic
