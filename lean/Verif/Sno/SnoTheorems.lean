import Verif.Sno.ReadLemmas
import Verif.Sdb.RefineSteps
import Verif.Sdb.SampleHist
/- C83 to C85: what is read from a file that keeps records in the order in which they came. -/
namespace Sis.Sno
open Sis Sis.Sdb
open Sis.Dyn (Db sameN getN getN_some)

theorem some_part (strict : Bool) (k l : Bytes) : Sub.half strict k (some l) = Sub.half strict k (Sub.part l) := by
  unfold Sub.part
  split
  · rename_i h; subst h; simp [Sub.half, Sub.subcmp, Sub.subLoop]; decide +kernel
  · rfl

/-- C83: a subscriber to everything in a file hears the records of all sessions in the order in which they were written, with the names
under which their key and table were first given, until it ends the subscription.  Missing: files with a size field that is read in two
pieces of 16 MB, and what `Allowed` and `Moderate` leave out, see the theorems below. -/
theorem C83_all_partial {lib : Lib} {v : Time.Env} {P : Db → Prop} {limit : Nat} (L : Restores lib) (T : Readable lib P) {file : Bytes × Bytes} {a : Abs}
    (h : Hist lib v P limit (some file) a) (hlen : Disk.Smooth file.1) {keys sdbs : Option Bytes} (hk : keys.getD [42] = [42]) (hs : sdbs.getD [42] = [42])
    (quit : List Rec → Bool) : ∃ got broke, play lib file keys sdbs quit = some (got, broke) ∧ Hears quit a.recs got broke := by
  obtain ⟨f, pgs, h1, h2, h3, _, _, _⟩ := (hist_ok (zipOk L) (textOk T) h).2 file rfl
  have hw : Whole lib file.1 f.c.kd (tabView f.c.sd) a.recs := by
    have := h2.core.whole
    rw [h3] at this
    rw [h2.recs, List.append_nil]
    exact this
  have := playAll_ok hw hlen quit ([], quit [])
  refine ⟨_, _, ?_, hears_start quit a.recs⟩
  unfold play
  rw [h1, Option.bind_some]
  simp only
  have hk' : keys.getD star = [42] := hk
  have hs' : sdbs.getD star = [42] := hs
  rw [if_pos (by rw [hk', hs']; decide +kernel)]
  exact this

open Classical in
/-- C84: a subscriber to lists of keys and tables hears the records of all sessions that have such a key and such a table, in the order in
which they were written, until it ends the subscription.  Missing: what `Allowed` and `Moderate` leave out, see the theorems below. -/
theorem C84_some_partial {lib : Lib} {v : Time.Env} {P : Db → Prop} {limit : Nat} (L : Restores lib) (T : Readable lib P) {file : Bytes × Bytes} {a : Abs}
    (h : Hist lib v P limit (some file) a) {keys sdbs : Bytes} (hk : (0 : UInt8) ∉ keys) (hs : (0 : UInt8) ∉ sdbs) (hstar : ¬ (keys = [42] ∧ sdbs = [42]))
    (quit : List Rec → Bool) : ∃ got broke, play lib file (some keys) (some sdbs) quit = some (got, broke) ∧
      Hears quit (a.recs.filter fun r => Wants keys sdbs r) got broke := by
  obtain ⟨f, pgs, h1, h2, h3, _, h5, _⟩ := (hist_ok (zipOk L) (textOk T) h).2 file rfl
  obtain ⟨n1, n2⟩ := hist_names h
  have hck : CStr keys := fun c hc e => hk (e ▸ hc)
  have hcs : CStr sdbs := fun c hc e => hs (e ▸ hc)
  have hc42 : CStr star := by intro c hc; rw [List.mem_singleton.1 hc]; decide
  have hlow : ∀ x, CStr x → (caseEq x star = true ↔ x = [42]) := by
    intro x hx
    rw [Sub.caseEq_low hx hc42]
    have h42 : Sub.low star = [42] := by decide +kernel
    rw [h42]
    constructor
    · intro e
      have hl := congrArg List.length e
      unfold Sub.low at e hl
      rw [List.length_map] at hl
      obtain ⟨c, rfl⟩ := List.length_eq_one_iff.1 hl
      have hc : lower c = 42 := by simpa using e
      have : ∀ n : Fin 256, lower (UInt8.ofNat n.val) = 42 → UInt8.ofNat n.val = 42 := by decide +kernel
      have := this ⟨c.toNat, c.toNat_lt⟩ (by simpa using hc)
      simp at this
      rw [this]
    · rintro rfl; decide +kernel
  have hrecs : a.recs = pgs.flatten := by rw [h2.recs, List.append_nil]
  have hplay := playPart_ok h2.core h2.pages (by rw [← hrecs]; exact h2.good) h5 (keys := keys) (sdbs := sdbs) (fun k s => decide (Wants keys sdbs ⟨k, s, []⟩)) (by
    intro e k s hnm
    have hgk := h2.core.inv.knames k hnm.key
    have hz := n1 k (by rw [← h2.keys]; exact hnm.key)
    obtain ⟨dbs, hdb⟩ := hnm.tab s rfl
    have hgs := (h2.core.inv.snames _ hdb).1
    obtain ⟨n, hn⟩ := mem_tabView hdb
    rw [h2.tabs] at hn
    have hcm := n2 _ hn
    have hkc : CStr k := fun c hc e => hz (e ▸ hc)
    have hsc : CStr s := fun c hc e => by
      have := (hgs.plain c hc).1
      rw [e] at this
      exact absurd this (by decide)
    have e1 : Sub.half false k (some keys) = true ↔ Sub.Half true (Sub.low keys) (Sub.low k) := by
      rw [some_part, Sub.half_spec hkc hgk.comma hck]; rfl
    have e2 : Sub.half true s (some sdbs) = true ↔ Sub.Half false (Sub.low sdbs) (Sub.low s) := by
      rw [some_part, Sub.half_spec hsc hcm hcs]; rfl
    have hwants : Wants keys sdbs ⟨k, s, []⟩ ↔ Sub.Half true (Sub.low keys) (Sub.low k) ∧ Sub.Half false (Sub.low sdbs) (Sub.low s) := Iff.rfl
    unfold wanted
    rw [hnm.kname, hnm.sname]
    simp only [Option.map_some]
    split
    · rename_i hst
      have hst := (hlow sdbs hcs).1 hst
      congr 1
      rw [Bool.eq_iff_iff, e1, decide_eq_true_iff, hwants, hst]
      have : Sub.low [42] = [42] := by decide +kernel
      simp [Sub.Half, this]
    · congr 1
      rw [Bool.eq_iff_iff, decide_eq_true_iff, Bool.and_eq_true, e1, e2, hwants]
      exact and_comm) quit ([], quit [])
  refine ⟨_, _, ?_, hears_start quit _⟩
  unfold play
  rw [h1, Option.bind_some]
  simp only [Option.getD_some]
  rw [if_neg (by rw [hlow _ hck, hlow _ hcs]; exact hstar), hplay, hrecs]
  rfl

/-- C85: the records of a key and a table are read one behind the other in the order in which they were written; without any, nothing is
read.  Missing: what `Allowed` and `Moderate` leave out, see the theorems below. -/
theorem C85_object_partial {lib : Lib} {v : Time.Env} {P : Db → Prop} {limit : Nat} (L : Restores lib) (T : Readable lib P) {file : Bytes × Bytes} {a : Abs}
    (h : Hist lib v P limit (some file) a) {k s : Bytes} (hk : (46 : UInt8) ∉ k) (hlen : k.length + s.length < 254) :
    ∃ rs, rs = (a.recs.filter fun r => fold r.key == fold k && fold r.tab == fold s) ∧
      getObj lib file k s = some (if rs = [] then none else some (rs.flatMap (·.data))) := by
  obtain ⟨f, pgs, h1, h2, h3, _, h5, _⟩ := (hist_ok (zipOk L) (textOk T) h).2 file rfl
  have hrecs : a.recs = pgs.flatten := by rw [h2.recs, List.append_nil]
  refine ⟨_, rfl, ?_⟩
  have hname : shortName k (some s) = nodeName k (some s) := by
    unfold shortName
    apply List.take_of_length_le
    simp only [nodeName, List.length_append, List.length_cons]
    omega
  unfold getObj
  rw [h1, Option.bind_some, hname]
  cases hg : getN f.c.idx (nodeName k (some s)) with
  | none =>
    simp only
    congr 1
    rw [if_pos]
    rw [List.filter_eq_nil_iff]
    intro r hr hb
    simp only [Bool.and_eq_true, beq_iff_eq] at hb
    obtain ⟨g1, g2⟩ := h2.good r hr
    rw [hrecs] at hr
    obtain ⟨pg, hpg, hr⟩ := List.mem_flatten.1 hr
    obtain ⟨p, hp⟩ := List.mem_iff_getElem?.1 hpg
    have hm : mine pg r.key r.tab ≠ [] := by
      intro e
      have : r ∈ ((tagFrom 0 pg).filter fun e => e.2.key == r.key && e.2.tab == r.tab).map (·.2) := by
        rw [filter_tag (fun x => x.key == r.key && x.tab == r.tab)]
        exact List.mem_filter.2 ⟨hr, by simp⟩
      unfold mine at e
      rw [e] at this
      cases this
    obtain ⟨u, hu, _⟩ := forall2_right (h2.core.units r.key r.tab g1 ⟨_, g2⟩) _ (pagesFrom_mem pgs 0 p pg hp hm)
    unfold unitsOf dictUnits at hu
    have hsame : sameN (nodeName r.key (some r.tab)) (nodeName k (some s)) = true :=
      (node_same (h2.core.inv.knames _ g1).dot hk).2 hb
    rw [Dyn.getN_congr _ hsame, hg] at hu
    cases hu
  | some nd =>
    simp only
    obtain ⟨i, e, e1, e2, e3⟩ := getN_some hg
    have e3' : sameN (nodeName k (some s)) e.1 = true := by simpa using e3
    have hdn := isData_node k s
    have hd : e ∈ data f.c.idx := List.mem_filter.2 ⟨List.mem_of_getElem? e1, by
      rw [← sameN_trans_r e3', ← sameN_trans_r e3', hdn.1, hdn.2]; rfl⟩
    obtain ⟨k', s', hnm, hu, hrow⟩ := node_pages h2.core hd
    rw [hnm.name] at e3'
    obtain ⟨hfk, hfs⟩ := (node_same hk (h2.core.inv.knames _ hnm.key).dot).1 e3'
    obtain ⟨dbs, hdb⟩ := hnm.tab s' rfl
    have hss : sameN s s' = true := fold_same.2 hfs
    obtain ⟨v1, v2⟩ := getTab_view h2.core.inv.sdiff s
    cases ht : getTab f.c.sd s with
    | none =>
      have := v1 ht
      rw [List.find?_eq_none] at this
      obtain ⟨n, hn⟩ := mem_tabView hdb
      exact absurd (by simpa using hfs.symm) (this _ hn)
    | some t =>
      obtain ⟨⟨t', dbs'⟩, j⟩ := t
      obtain ⟨w1, w2, w3⟩ := v2 t' dbs' j ht
      have heq : t' = s' := by
        have : sameN t' s' = true := by
          rw [← sameN_trans_r hss]
          rw [sameN_comm]; exact w2
        exact tab_eq h2.core.inv.sdiff ⟨_, List.mem_of_getElem? w1⟩ ⟨_, hdb⟩ this
      subst heq
      have hne := (h2.core.inv.snames _ (List.mem_of_getElem? w1)).2
      obtain ⟨db, hl⟩ : ∃ db, dbs'.getLast? = some db := by
        cases hl : dbs'.getLast? with
        | none => exact absurd (List.getLast?_eq_none_iff.1 hl) hne
        | some db => exact ⟨db, rfl⟩
      have hv : (t', db.size) ∈ tabView f.c.sd := List.mem_map.2 ⟨_, List.mem_of_getElem? w1, by simp [hl]⟩
      have hpos := h2.core.size _ hv
      simp only at hpos
      have huniq : ∀ n, (t', n) ∈ tabView f.c.sd → n = db.size := by
        intro n hn
        exact view_diff h2.core.inv.sdiff hn hv
      rw [Option.bind_some]
      simp only [hl, Option.bind_some]
      rw [if_neg (by omega), ← e2, joinUnits_ok huniq hrow, pages_data, Option.map_some, ← hrecs]
      have hsel : (a.recs.filter fun r => r.key == k' && r.tab == t') = a.recs.filter fun r => fold r.key == fold k && fold r.tab == fold s := by
        apply List.filter_congr
        intro r hr
        obtain ⟨g1, g2⟩ := h2.good r hr
        rw [Bool.eq_iff_iff]
        simp only [Bool.and_eq_true, beq_iff_eq]
        constructor
        · rintro ⟨rfl, rfl⟩; exact ⟨hfk.symm, hfs.symm⟩
        · rintro ⟨q1, q2⟩
          exact ⟨key_eq h2.core.inv.kdiff g1 hnm.key (fold_same.2 (q1.trans hfk)), tab_eq h2.core.inv.sdiff (tabView_mem g2) ⟨_, hdb⟩ (fold_same.2 (q2.trans hfs))⟩
      rw [hsel]
      congr 1
      have hdata : ∀ r ∈ a.recs.filter fun r => fold r.key == fold k && fold r.tab == fold s, r.data ≠ [] := by
        intro r hr
        have := h2.core.size _ (h2.good r (List.mem_filter.1 hr).1).2
        simp only at this
        exact List.length_pos_iff.1 this
      cases hrs : a.recs.filter fun r => fold r.key == fold k && fold r.tab == fold s with
      | nil => rfl
      | cons r rs =>
        rw [hrs] at hdata
        have := hdata r (by simp)
        rw [if_neg (by rw [List.flatMap_cons]; intro e; exact this (List.append_eq_nil_iff.1 e).1), if_neg (by simp)]

/-! ### A file used in two sessions -/

namespace Sample
open Sis.Sdb.Sample (lib env b infoDb secDb dbs readable restores key_of)

def acts1 : List Act := [.keys [b "a", b "ab"], .tabs [⟨b "x", infoDb⟩, ⟨b "y", infoDb⟩], .start, .put (b "a") (b "x") [1, 2, 3, 4], .put (b "ab") (b "y") [5, 6, 7, 8, 9, 9, 9, 9],
  .put (b "A") (b "X") [0, 0, 0, 0], .stop]

def acts2 : List Act := [.keys [b "c"], .start, .put (b "c") (b "x") [7, 7, 7, 7], .put (b "a") (b "x") [8, 8, 8, 8], .stop]

def file1 : Bytes × Bytes := (session (lib false) env 10 none (acts1.map Act.cmd)).getD ([], [])
def file2 : Bytes × Bytes := (session (lib false) env 10 (some file1) (acts2.map Act.cmd)).getD ([], [])

theorem ok_nil {P : Db → Prop} {limit : Nat} {a : Abs} : ∀ (pre : List Act) (x : Act) (post : List Act), [] = pre ++ x :: post → Allowed P limit (a.acts pre) x :=
  fun pre x post h => by cases pre <;> cases h

theorem ok_cons {P : Db → Prop} {limit : Nat} {a : Abs} {y : Act} {ys : List Act} (h : Allowed P limit a y)
    (g : ∀ (pre : List Act) (x : Act) (post : List Act), ys = pre ++ x :: post → Allowed P limit ((a.act y).acts pre) x) :
    ∀ (pre : List Act) (x : Act) (post : List Act), y :: ys = pre ++ x :: post → Allowed P limit (a.acts pre) x := by
  intro pre x post he
  cases pre with
  | nil => cases he; exact h
  | cons z pre => cases he; exact g pre x post rfl

theorem moderate {f : Bytes × Bytes} (h1 : f.1.length + 64 < 2 ^ 31) (h2 : f.2.length ≤ 16 * 1024 * 1024)
    (h3 : (Disk.readFull (fun _ _ => .next) (Disk.chunksOf (Disk.readSize - 1) f.2)).all (fun bs => decide ((bs.filter fun b => Disk.hidOf b.1 == hidIdxSno).length ≤ 1)) = true) : Moderate f :=
  ⟨h1, Disk.readable_small h2, fun bs hbs => by rw [hbs] at h3; simpa using h3⟩

theorem some_getD {o : Option (Bytes × Bytes)} (h : o.isSome = true) : o = some (o.getD ([], [])) := by
  obtain ⟨x, hx⟩ := Option.isSome_iff_exists.1 h
  rw [hx]; rfl

theorem tab_of {s : Bytes} (h : s ≠ [] ∧ s.length ≤ 126 ∧ ∀ c ∈ s, 32 ≤ c ∧ c ≠ 34 ∧ c ≠ 92) : TabName s := ⟨h.1, h.2.1, h.2.2⟩

theorem key_a : KeyName (b "a") := key_of (by decide +kernel)
theorem key_ab : KeyName (b "ab") := key_of (by decide +kernel)
theorem key_A : KeyName (b "A") := key_of (by decide +kernel)
theorem key_c : KeyName (b "c") := key_of (by decide +kernel)

theorem put_of {a : Abs} {k s d : Bytes} (h1 : a.busy = true) (hk : KeyName k) (h : (0 : UInt8) ∉ k ∧ d ≠ [] ∧ 10 + d.length < 2 ^ 31) : Allowed (· ∈ dbs) 10 a (.put k s d) :=
  ⟨h1, hk, h.1, h.2.1, h.2.2⟩

theorem session1 : Session (lib false) env (· ∈ dbs) 10 none {} acts1 file1 where
  ok := by
    unfold acts1
    refine ok_cons ?_ (ok_cons ?_ (ok_cons rfl (ok_cons (put_of rfl key_a (by decide +kernel)) (ok_cons (put_of (by decide +kernel) key_ab (by decide +kernel))
      (ok_cons (put_of (by decide +kernel) key_A (by decide +kernel)) (ok_cons (by decide +kernel : (_ : Abs).busy = true) ok_nil))))))
    · intro k hk
      simp only [List.mem_cons, List.not_mem_nil, or_false] at hk
      rcases hk with rfl | rfl
      · exact ⟨key_a, by decide +kernel⟩
      · exact ⟨key_ab, by decide +kernel⟩
    · refine ⟨?_, by decide +kernel⟩
      intro t ht
      simp only [List.mem_cons, List.not_mem_nil, or_false] at ht
      rcases ht with rfl | rfl
      · exact ⟨tab_of (by decide +kernel), by decide +kernel, by decide +kernel, by decide +kernel, by intro o ho; cases ho⟩
      · exact ⟨tab_of (by decide +kernel), by decide +kernel, by decide +kernel, by decide +kernel, by intro o ho; cases ho⟩
  run := some_getD (by decide +kernel)
  stopped := by decide +kernel
  size := moderate (by decide +kernel) (by decide +kernel) (by decide +kernel)

theorem session2 : Session (lib false) env (· ∈ dbs) 10 (some file1) (Abs.acts {} acts1) acts2 file2 where
  ok := by
    unfold acts2
    refine ok_cons ?_ (ok_cons (by decide +kernel : (_ : Abs).busy = false) (ok_cons (put_of (by decide +kernel) key_c (by decide +kernel))
      (ok_cons (put_of (by decide +kernel) key_a (by decide +kernel)) (ok_cons (by decide +kernel : (_ : Abs).busy = true) ok_nil))))
    intro k hk
    rw [List.mem_singleton.1 hk]
    exact ⟨key_c, by decide +kernel⟩
  run := some_getD (by decide +kernel)
  stopped := by decide +kernel
  size := moderate (by decide +kernel) (by decide +kernel) (by decide +kernel)

/-- C83, C84, C85: keys, tables and records of two sessions, in pages of few bytes. -/
theorem hist2 : Hist (lib false) env (· ∈ dbs) 10 (some file2) (Abs.acts (Abs.acts {} acts1) acts2) := .session (.session .new session1) session2

example : Restores (lib false) ∧ Readable (lib false) (· ∈ dbs) := ⟨restores false, readable false⟩

example : (Abs.acts (Abs.acts {} acts1) acts2).recs = [⟨b "a", b "x", [1, 2, 3, 4]⟩, ⟨b "ab", b "y", [5, 6, 7, 8]⟩, ⟨b "ab", b "y", [9, 9, 9, 9]⟩, ⟨b "a", b "x", [0, 0, 0, 0]⟩,
    ⟨b "c", b "x", [7, 7, 7, 7]⟩, ⟨b "a", b "x", [8, 8, 8, 8]⟩] ∧ Disk.Smooth file2.1 := ⟨by decide +kernel, Disk.smooth_small (by decide +kernel)⟩

/-- C84: a list of one key and one of two tables. -/
example : (0 : UInt8) ∉ b "a" ∧ (0 : UInt8) ∉ b "x,y" ∧ ¬ (b "a" = [42] ∧ b "x,y" = [42]) ∧ Wants (b "a") (b "x,y") ⟨b "ab", b "y", [5, 6, 7, 8]⟩ :=
  ⟨by decide +kernel, by decide +kernel, by decide +kernel, .inr ⟨b "a", by decide +kernel, by decide +kernel, ⟨b "b", by decide +kernel⟩⟩,
    .inr ⟨b "y", by decide +kernel, by decide +kernel, by decide +kernel⟩⟩

/-- C85: a key and a table. -/
example : (46 : UInt8) ∉ b "A" ∧ (b "A").length + (b "x").length < 254 ∧
    getObj (lib false) file2 (b "A") (b "x") = some (some [1, 2, 3, 4, 0, 0, 0, 0, 8, 8, 8, 8]) := by decide +kernel

end Sample

/-! ### What is left out -/

section
open Sis.Sdb.Sample (lib env b infoDb secDb dayDb)

/-- C83, C85 fail for a table whose records had another size in an earlier session: the older records are read with the new size, over
the end of the buffer. -/
theorem C83_violated_size : ∃ f g, session (lib false) env 100 none [.keys (b "a"), .tabs [⟨b "x", infoDb⟩], .start, .put (b "a") (b "x") [1, 2, 3, 4], .stop] = some f ∧
    play (lib false) f none none (fun _ => false) = some ([⟨b "a", b "x", [1, 2, 3, 4]⟩], false) ∧
    session (lib false) env 100 (some f) [.tabs [⟨b "x", dayDb⟩]] = some g ∧ play (lib false) g none none (fun _ => false) = none ∧ getObj (lib false) g (b "a") (b "x") = none :=
  ⟨_, _, Sample.some_getD (by decide +kernel), by decide +kernel, Sample.some_getD (by decide +kernel), by decide +kernel, by decide +kernel⟩

/-- C83 fails when writing is started again without a stop: the records that are not in the file yet are lost. -/
theorem C83_violated_restart : ∃ f, session (lib false) env 100 none [.keys (b "a"), .tabs [⟨b "x", infoDb⟩], .start, .put (b "a") (b "x") [1, 2, 3, 4],
      .start, .put (b "a") (b "x") [5, 6, 7, 8], .stop] = some f ∧
    play (lib false) f none none (fun _ => false) = some ([⟨b "a", b "x", [5, 6, 7, 8]⟩], false) :=
  ⟨_, Sample.some_getD (by decide +kernel), by decide +kernel⟩

/-- C83 fails when the writer is closed without a stop: the records of the last page are lost, and no error is reported. -/
theorem C83_violated_unstopped : ∃ f, session (lib false) env 100 none [.keys (b "a"), .tabs [⟨b "x", infoDb⟩], .start, .put (b "a") (b "x") [1, 2, 3, 4]] = some f ∧
    play (lib false) f none none (fun _ => false) = some ([], false) :=
  ⟨_, Sample.some_getD (by decide +kernel), by decide +kernel⟩

/-- C83 fails for keys with dots: records of another key and table are heard under the names of the first. -/
theorem C83_violated_dots : ∃ f, session (lib false) env 100 none [.tabs [⟨b "c", infoDb⟩, ⟨b "b.c", infoDb⟩], .start, .put (b "a.b") (b "c") [1, 2, 3, 4],
      .put (b "a") (b "b.c") [5, 6, 7, 8], .stop] = some f ∧
    play (lib false) f none none (fun _ => false) = some ([⟨b "a.b", b "c", [1, 2, 3, 4]⟩, ⟨b "a.b", b "c", [5, 6, 7, 8]⟩], false) :=
  ⟨_, Sample.some_getD (by decide +kernel), by decide +kernel⟩

/-- C83: a write of no bytes to a table with a time reads in front of the buffer. -/
theorem C83_violated_empty : session (lib false) env 100 none [.tabs [⟨b "x", secDb⟩], .start, .put (b "a") (b "x") [], .stop] = none := by decide +kernel

/-- C84 fails when the blocks of records are listed in more than one block of the index: the pages are counted in the last one only,
and the records of the pages behind it are not heard. -/
theorem C84_violated_pages : ∃ e1 e2, encNode ⟨some (b "a"), some (b "x"), [{ active := 1, offset := 50, size := 9, stop := 3 }]⟩ = some e1 ∧
    encNode ⟨some (b "b"), some (b "x"), [{ active := 1, offset := 60, size := 9, stop := 1 }]⟩ = some e2 ∧
    (decIdx (lib false) [] { r := ⟨[b "a", b "b"], [(b "x", [infoDb])], []⟩ } [packed (lib false) false hidIdxSno e1, packed (lib false) false hidIdxSno e2]).map
      (fun r => (r.pages, (getN r.r.idx (b "a.x")).map fun n => n.units.map (·.stop))) = some (2, some [3]) :=
  ⟨_, _, rfl, rfl, by decide +kernel⟩

end

end Sis.Sno
