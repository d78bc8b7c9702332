import Verif.Sdb.WriterLemmas
/- What each call of a writer does to what is seen. -/
namespace Sis.Sdb
open Sis Sis.Disk
open Sis.Dyn (sameN getN setN Db sameN_iff sameN_refl getN_none getN_some setN_spec getN_congr)

structure Good (lib : Lib) (P : Db → Prop) (d : Disk) (w : Writer) (S : Store) : Prop where
  main : MainInv lib P w.main
  files : FilesOk lib P d w.units S

/-- The files are not too large. -/
structure Small (w : Writer) : Prop where
  main : Readable w.main.body
  units : ∀ e ∈ w.units, e.2.body.length < 2 ^ 32

/-- Files only grow. -/
structure Grow (w w' : Writer) : Prop where
  main : ∃ x, w'.main.body = w.main.body ++ x
  units : ∀ e ∈ w.units, ∃ e' ∈ w'.units, e'.1 = e.1 ∧ ∃ x, e'.2.body = e.2.body ++ x

theorem Grow.refl (w : Writer) : Grow w w := ⟨⟨[], by simp⟩, fun e he => ⟨e, he, rfl, [], by simp⟩⟩

theorem Grow.trans {a b c : Writer} (h : Grow a b) (g : Grow b c) : Grow a c := by
  obtain ⟨x, hx⟩ := h.main
  obtain ⟨y, hy⟩ := g.main
  refine ⟨⟨x ++ y, by rw [hy, hx, List.append_assoc]⟩, fun e he => ?_⟩
  obtain ⟨e1, h1, h2, x, h3⟩ := h.units e he
  obtain ⟨e2, g1, g2, y, g3⟩ := g.units e1 h1
  exact ⟨e2, g1, g2.trans h2, x ++ y, by rw [g3, h3, List.append_assoc]⟩

theorem Grow.small {a b : Writer} (h : Grow a b) (hs : Small b) : Small a := by
  obtain ⟨x, hx⟩ := h.main
  have := hs.main
  rw [hx] at this
  refine ⟨this.prefix, fun e he => ?_⟩
  obtain ⟨e1, h1, _, y, h3⟩ := h.units e he
  have := hs.units e1 h1
  rw [h3, List.length_append] at this
  omega

theorem grow_main (w : Writer) (m : Ctl) (h : ∃ x, m.body = w.main.body ++ x) : Grow w { w with main := m } :=
  ⟨h, fun e he => ⟨e, he, rfl, [], by simp⟩⟩

theorem grow_put (w : Writer) {d : Disk} {lib : Lib} {P : Db → Prop} {S : Store} (h : FilesOk lib P d w.units S) {u : Uid} (hu : Sane u) (c : Ctl)
    (hc : ∀ e ∈ w.units, e.1 = u → ∃ x, c.body = e.2.body ++ x) : Grow w (putUnit w u c) := by
  unfold putUnit
  split
  · refine ⟨⟨[], by simp⟩, fun e he => ?_⟩
    refine ⟨_, List.mem_map.2 ⟨e, he, rfl⟩, ?_, ?_⟩
    · split <;> rfl
    · split
      · rename_i hk
        exact hc e he (key_inj (h.units e he).2.1 hu hk)
      · exact ⟨[], by simp⟩
  · exact ⟨⟨[], by simp⟩, fun e he => ⟨e, by simp [he], rfl, [], by simp⟩⟩

theorem put_mem (w : Writer) (u : Uid) (c : Ctl) : ∃ e ∈ (putUnit w u c).units, e.2 = c := by
  unfold putUnit
  split
  · rename_i h
    rw [List.any_eq_true] at h
    obtain ⟨e, he, hk⟩ := h
    exact ⟨_, List.mem_map.2 ⟨e, he, rfl⟩, by simp [hk]⟩
  · exact ⟨(u, c), by simp, rfl⟩

/-- A mark of presence. -/
def mark (maps : List (Bytes × MapE)) (n : Bytes) (ktype day : Nat) : List (Bytes × MapE) :=
  match getN maps n with
  | none => (setN maps n ⟨1, ktype, [(day, 1)]⟩).1
  | some e => match getDay e.days day with
    | none => (setN maps n { e with days := setDay e.days day 1 }).1
    | some _ => maps

/-- A block is put into a data file and a mark into the main file. -/
theorem put_step {lib : Lib} {P : Db → Prop} {d : Disk} {w : Writer} {S : Store} (h : Good lib P d w S) {u : Uid} (hu : Sane u) {c0 c : Ctl}
    (hc0 : ∀ e ∈ w.units, e.1 = u → ∃ x, c0.body = e.2.body ++ x) (hg : ∃ x, c.body = c0.body ++ x)
    (n0 : Bytes) (f : Blocks → Blocks) (hv : c.body.length < 2 ^ 32 → UOk lib P u c ∧ ∀ n, IsData n → view lib c n = if sameN n n0 = true then some (f ((S u n).getD [])) else S u n)
    {k : Bytes} {i : Nat} (hk : w.main.kd[i]? = some k) (s : Option (Bytes × Nat)) (hs : ∀ e, s = some e → ∃ dbs, w.main.sd[e.2]? = some (e.1, dbs))
    (ktype : Nat) (hkt : ktype < 256) (day : Nat) (hday : day < 2 ^ 32) :
    ∃ w', ({ putUnit w u c with main := writeMap lib (putUnit w u c).main (k, i) s ktype day false } : Writer) = w' ∧ Grow w w' ∧
      (Small w' → Good lib P d w' (put S u n0 f) ∧ w'.main.kd = w.main.kd ∧ w'.main.sd = w.main.sd ∧
        w'.main.maps = mark w.main.maps (shortName k (s.map (·.1))) ktype day) := by
  have hmain : (putUnit w u c).main = w.main := by unfold putUnit; split <;> rfl
  rw [hmain]
  have hgrow : ∃ x, (writeMap lib w.main (k, i) s ktype day false).body = w.main.body ++ x := by
    unfold writeMap
    simp only
    split
    · rw [if_neg (by simp)]; unfold writeWork; simp only; split <;> exact ⟨_, rfl⟩
    · split
      · rw [if_neg (by simp)]; unfold writeWork; simp only; split <;> exact ⟨_, rfl⟩
      · rw [if_neg (by simp)]; exact ⟨[], by simp⟩
  have g1 := grow_put w h.files hu c (by
    intro e he heu
    obtain ⟨x, hx⟩ := hc0 e he heu
    obtain ⟨y, hy⟩ := hg
    exact ⟨x ++ y, by rw [hy, hx, List.append_assoc]⟩)
  have g2 := grow_main (putUnit w u c) (writeMap lib w.main (k, i) s ktype day false) (by rw [hmain]; exact hgrow)
  refine ⟨_, rfl, g1.trans g2, fun hsm => ?_⟩
  have s1 := g2.small hsm
  have s2 := g1.small s1
  obtain ⟨e, he, hec⟩ := put_mem w u c
  have hcs := s1.units e he
  rw [hec] at hcs
  obtain ⟨v1, v2⟩ := hv hcs
  obtain ⟨m', m1, m2, m3, m4, m5, m6⟩ := main_map h.main hk s hs ktype hkt day hday (by have := s2.main.len; omega)
  rw [m1]
  obtain ⟨f1, f2⟩ := h.files.put hu v1 n0 f v2
  exact ⟨⟨m2, f1⟩, m3, m4, m6⟩

/-! ### Keys and tables -/

theorem keys_fold (ks : List Bytes) : ∀ w : Writer, ks.foldl (fun w k => onUnits { w with main := setKey w.main k } fun c => setKey c k) w =
    { main := ks.foldl setKey w.main, units := w.units.map fun e => (e.1, ks.foldl setKey e.2) } := by
  induction ks with
  | nil => intro w; simp
  | cons k ks ih =>
    intro w
    rw [List.foldl_cons, ih]
    simp [onUnits, List.map_map]

theorem keys_step {lib : Lib} {P : Db → Prop} {d : Disk} {w : Writer} {S : Store} (h : Good lib P d w S) {s : Bytes}
    (hk : ∀ k ∈ splitNames s, GoodKey k) :
    Grow w (setKeys lib w s) ∧ (Small (setKeys lib w s) → Good lib P d (setKeys lib w s) S) ∧ (setKeys lib w s).main.sd = w.main.sd ∧
      (setKeys lib w s).main.maps = w.main.maps ∧
      (setKeys lib w s).main.kd = if s = [] then w.main.kd else (splitNames s).foldl addKey w.main.kd := by
  unfold setKeys
  by_cases hs : s = []
  · rw [if_pos hs, if_pos hs]; exact ⟨Grow.refl w, fun _ => h, rfl, rfl, rfl⟩
  · rw [if_neg hs, if_neg hs, keys_fold]
    obtain ⟨m', m1, m2, m3, m4, m5, m6, m7, m8⟩ := main_keys h.main (splitNames s) hk
    have hu : ∀ e ∈ w.units, Pre lib P e.1 ((splitNames s).foldl setKey e.2) ∧ Ext lib e.2 ((splitNames s).foldl setKey e.2) ∧
        ((splitNames s).foldl setKey e.2).news = [] ∧ ((splitNames s).foldl setKey e.2).body = e.2.body := by
      intro e he
      have ho := (h.files.units e he).1
      obtain ⟨p1, p2, p3, p4, p5, p6⟩ := setKeys_pre (splitNames s) hk e.2 ho.toPre
      exact ⟨p1, p2, p3.trans ho.news, p6⟩
    simp only [onUnits, List.map_map, m1]
    refine ⟨⟨m8, ?_⟩, ?_, m4, m5, m3⟩
    · intro e he
      refine ⟨_, List.mem_map.2 ⟨e, he, rfl⟩, rfl, ?_⟩
      obtain ⟨x, hx⟩ := writeKeys_grow lib ((splitNames s).foldl setKey e.2)
      exact ⟨x, by simp only [Function.comp]; rw [hx, (hu e he).2.2.2]⟩
    · intro hsm
      refine ⟨m2, h.files.map (fun c => writeKeys lib ((splitNames s).foldl setKey c)) fun e he => ?_⟩
      obtain ⟨p1, p2, p3, p4⟩ := hu e he
      obtain ⟨q1, q2, _, _⟩ := flush_uok p1 p3 (hsm.units _ (List.mem_map.2 ⟨e, he, rfl⟩))
      exact ⟨q1, fun n hn => (p2.trans q2).view n hn⟩

/-- A table for files of its kind. -/
def setTabK (c : Ctl) (t : Tab) : Ctl := if some c.kind = scale t.db then setTab c t else c

theorem setTab_kind (c : Ctl) (t : Tab) : (setTab c t).kind = c.kind := by unfold setTab; split <;> rfl

theorem tabs_fold {P : Db → Prop} (K : TabsOk P) (ts : List Tab) (ht : ∀ t ∈ ts, P t.db) : ∀ w : Writer,
    ts.foldlM (fun w t => tabChanged { w with main := setTab w.main t } t) w =
      some { main := ts.foldl setTab w.main, units := w.units.map fun e => (e.1, ts.foldl setTabK e.2) } := by
  induction ts with
  | nil => intro w; simp
  | cons t ts ih =>
    intro w
    obtain ⟨k, hk, _⟩ := K.kind t.db (ht t (by simp))
    have h1 : tabChanged { w with main := setTab w.main t } t = some (onUnits { w with main := setTab w.main t } fun c => if c.kind = k then setTab c t else c) := by
      simp only [tabChanged, hk, Option.map_some]
    rw [List.foldlM_cons, h1]
    simp only [Option.bind_eq_bind, Option.bind_some]
    rw [ih (fun x hx => ht x (by simp [hx]))]
    simp only [onUnits, List.foldl_cons, List.map_map, Option.some.injEq, Writer.mk.injEq, true_and]
    apply List.map_congr_left
    intro e _
    simp [setTabK, hk]

theorem setTabKs_pre {lib : Lib} {P : Db → Prop} {u : Uid} (ts : List Tab) (ht : ∀ t ∈ ts, GoodTab t.name ∧ P t.db)
    (hd : ts.Pairwise fun a b => sameN a.name b.name = false) : ∀ c : Ctl, Pre lib P u c → (∀ n ∈ c.news, ∀ t ∈ ts, sameN n.name t.name = false) →
      Pre lib P u (ts.foldl setTabK c) ∧ Ext lib c (ts.foldl setTabK c) ∧ (ts.foldl setTabK c).newk = c.newk ∧ (ts.foldl setTabK c).body = c.body := by
  induction ts with
  | nil => intro c h _; exact ⟨h, Ext.refl lib c, rfl, rfl⟩
  | cons t ts ih =>
    intro c h hn
    obtain ⟨hd1, hd2⟩ := List.pairwise_cons.1 hd
    rw [List.foldl_cons]
    have hrest := ih (fun x hx => ht x (by simp [hx])) hd2
    unfold setTabK
    split
    · obtain ⟨s1, s2, s3, s4, s5, s6, s7⟩ := setTab_pre h (ht t (by simp)).1 (ht t (by simp)).2 (fun n hx => hn n hx t (by simp))
      obtain ⟨g1, g2, g3, g4⟩ := hrest _ s1 (by
        intro n hx x hxs
        rcases s6 n hx with hx | rfl
        · exact hn n hx x (by simp [hxs])
        · exact hd1 x hxs)
      exact ⟨g1, s2.trans g2, g3.trans s3, g4.trans s7⟩
    · exact hrest c h (fun n hx x hxs => hn n hx x (by simp [hxs]))

theorem tabs_step {lib : Lib} {P : Db → Prop} (T : TextOk lib P) (K : TabsOk P) {d : Disk} {w : Writer} {S : Store} (h : Good lib P d w S) {ts : List Tab}
    (ht : ∀ t ∈ ts, GoodTab t.name ∧ P t.db) (hd : ts.Pairwise fun a b => sameN a.name b.name = false) :
    ∃ w', setTabs lib w ts = some w' ∧ Grow w w' ∧ (Small w' → Good lib P d w' S) ∧ w'.main.kd = w.main.kd ∧ w'.main.maps = w.main.maps ∧
      w'.main.sd = ts.foldl (fun sd t => (addTab sd t).1) w.main.sd := by
  unfold setTabs
  rw [tabs_fold K ts (fun t hx => (ht t hx).2)]
  obtain ⟨m', m1, m2, m3, m4, m5, m6⟩ := main_tabs T h.main ts ht hd
  have hu : ∀ e ∈ w.units, Pre lib P e.1 (ts.foldl setTabK e.2) ∧ Ext lib e.2 (ts.foldl setTabK e.2) ∧ (ts.foldl setTabK e.2).newk = [] ∧
      (ts.foldl setTabK e.2).body = e.2.body := by
    intro e he
    have ho := (h.files.units e he).1
    obtain ⟨p1, p2, p3, p4⟩ := setTabKs_pre (lib := lib) ts ht hd e.2 ho.toPre (by rw [ho.news]; simp)
    exact ⟨p1, p2, p3.trans ho.newk, p4⟩
  simp only [Option.map_some, onUnits, List.map_map, m1]
  refine ⟨_, rfl, ⟨m6, ?_⟩, ?_, m3, m5, m4⟩
  · intro e he
    refine ⟨_, List.mem_map.2 ⟨e, he, rfl⟩, rfl, ?_⟩
    obtain ⟨x, hx⟩ := writeTabs_grow lib (ts.foldl setTabK e.2)
    exact ⟨x, by simp only [Function.comp]; rw [hx, (hu e he).2.2.2]⟩
  · intro hsm
    refine ⟨m2, h.files.map (fun c => writeTabs lib (ts.foldl setTabK c)) fun e he => ?_⟩
    obtain ⟨p1, p2, p3, p4⟩ := hu e he
    obtain ⟨q1, q2, _, _⟩ := flush_tabs T p1 p3 (hsm.units _ (List.mem_map.2 ⟨e, he, rfl⟩))
    exact ⟨q1, fun n hn => (p2.trans q2).view n hn⟩

/-! ### Values -/

theorem newKey_step {lib : Lib} {P : Db → Prop} {m : Ctl} (h : MainInv lib P m) {k : Bytes} (hk : GoodKey k) :
    ∃ m', newKey lib m k = m' ∧ MainInv lib P m' ∧ m'.kd = addKey m.kd k ∧ m'.sd = m.sd ∧ m'.maps = m.maps ∧ (∃ n ∈ m'.kd, sameN k n = true) ∧ ∃ x, m'.body = m.body ++ x := by
  unfold newKey
  split
  · rename_i hs
    exact ⟨m, rfl, h, by unfold addKey; rw [if_pos hs], rfl, rfl, getKey_isSome.1 hs, [], by simp⟩
  · obtain ⟨m', m1, m2, m3, m4, m5, m6, m7, m8⟩ := main_keys h [k] (by simpa using hk)
    exact ⟨m', m1, m2, m3, m4, m5, m7 k (by simp), m8⟩

/-- One value or a list is written. -/
theorem alone_step {lib : Lib} {P : Db → Prop} (T : TextOk lib P) (K : TabsOk P) {d : Disk} {w : Writer} {S : Store} (h : Good lib P d w S) {k : Bytes} (hk : GoodKey k)
    (wr : Ctl → Option Ctl) (blk : Blocks) (ktype : Nat) (hkt : ktype < 256)
    (hwr : ∀ c : Ctl, (∃ n ∈ c.kd, sameN k n = true) → ∃ c', wr c = some c' ∧ (∃ x, c'.body = c.body ++ x) ∧
      (c'.body.length < 2 ^ 32 → UOk lib P .nots c → UOk lib P .nots c' ∧ ∀ n, view lib c' n = if sameN n k then some blk else view lib c n)) :
    ∃ w', ((getKey (newKey lib w.main k).kd k).bind fun kd =>
      (getUnit lib d { w with main := newKey lib w.main k } .nots).bind fun c => (wr c).map fun c =>
        let w := putUnit { w with main := newKey lib w.main k } .nots c
        { w with main := writeMap lib w.main kd none ktype 0 false }) = some w' ∧ Grow w w' ∧
      (Small w' → Good lib P d w' (put S .nots k fun _ => blk) ∧ w'.main.kd = addKey w.main.kd k ∧ w'.main.sd = w.main.sd ∧
        ∃ n ∈ addKey w.main.kd k, sameN k n = true ∧ w'.main.maps = mark w.main.maps n ktype 0) := by
  obtain ⟨m', m1, m2, m3, m4, m5, m6, m7⟩ := newKey_step h.main hk
  rw [m1]
  have h1 : Good lib P d { w with main := m' } S := ⟨m2, h.files⟩
  have g1 := grow_main w m' m7
  generalize hw1 : ({ w with main := m' } : Writer) = w1 at h1 g1
  have hm1 : w1.main = m' := by rw [← hw1]
  rw [← hm1] at m6
  obtain ⟨⟨k', i⟩, hg⟩ := Option.isSome_iff_exists.1 (getKey_isSome.2 m6)
  obtain ⟨k1, k2, k3⟩ := getKey_some hg
  rw [← hm1, hg]
  simp only [Option.bind_some]
  obtain ⟨c, c1, c2, c3, _, c4⟩ := getUnit_good T K h1.main h1.files (u := .nots) trivial
  rw [c1]
  simp only [Option.bind_some]
  obtain ⟨c', e1, e2, e3⟩ := hwr c (by
    obtain ⟨n, hn, hs⟩ := m6
    obtain ⟨n', hn', hs'⟩ := c3 n hn
    refine ⟨n', hn', ?_⟩
    rw [sameN_iff] at hs hs' ⊢
    exact hs.trans hs')
  rw [e1]
  simp only [Option.map_some]
  obtain ⟨w', p1, p2, p3⟩ := put_step h1 (u := .nots) trivial c2 e2 k (fun _ => blk) (by
    intro hb
    have hcb : c.body.length < 2 ^ 32 := by
      obtain ⟨x, hx⟩ := e2
      rw [hx, List.length_append] at hb
      omega
    obtain ⟨u1, u2⟩ := c4 hcb
    obtain ⟨v1, v2⟩ := e3 hb u1
    refine ⟨v1, fun n hn => ?_⟩
    rw [v2, u2 n hn]) k3 none (by intro e he; cases he) ktype hkt 0 (by omega)
  refine ⟨w', by rw [p1], g1.trans p2, fun hsm => ?_⟩
  obtain ⟨q1, q2, q3, q4⟩ := p3 hsm
  refine ⟨q1, q2.trans (by rw [hm1, m3]), q3.trans (by rw [hm1, m4]), k', ?_, ?_, ?_⟩
  · rw [← m3, ← hm1]; exact List.mem_of_getElem? k3
  · exact k2
  · have hl : (k' : Bytes).take 254 = k' := List.take_of_length_le (by
      have := (h1.main.knames k' k1).len
      omega)
    have hn : shortName k' (Option.map (fun x : Bytes × Nat => x.1) none) = k' := hl
    rw [hm1, hn] at q4; rw [q4, m5]

end Sis.Sdb
