import Verif.Sno.StepLemmas
import Verif.Sdb.UnitSteps
/- Lemmas on an open file of records in order: records are put, and the steps together. -/
namespace Sis.Sno
open Sis Sis.Disk Sis.Sdb
open Sis.Dyn (sameN getN setN Db sameN_iff sameN_refl getN_none getN_some setN_spec getN_congr)

/-! ### Records -/

theorem records_eq (size m : Nat) : ∀ d : Bytes, records size m d = (List.range m).map fun i => (d.drop (i * size)).take size := by
  induction m with
  | zero => intro d; rfl
  | succ m ih =>
    intro d
    rw [records, ih, List.range_succ_eq_map]
    simp only [List.map_cons, List.map_map, Nat.zero_mul, List.drop_zero, List.cons.injEq, true_and]
    apply List.map_congr_left
    intro i _
    simp only [Function.comp_apply, List.drop_drop]
    congr 2
    rw [Nat.succ_mul, Nat.add_comm]

theorem slices_eq (size : Nat) (d : Bytes) : slices size d = records size (d.length / size) d := (records_eq _ _ d).symm

theorem records_len {size m : Nat} {d : Bytes} (h : m * size ≤ d.length) : ∀ r ∈ records size m d, r.length = size := by
  rw [records_eq]
  intro r hr
  obtain ⟨i, hi, rfl⟩ := List.mem_map.1 hr
  have : (i + 1) * size ≤ m * size := Nat.mul_le_mul_right _ (List.mem_range.1 hi)
  rw [Nat.succ_mul] at this
  rw [List.length_take, List.length_drop]
  omega

theorem records_length (size m : Nat) : ∀ d : Bytes, (records size m d).length = m := by
  intro d; rw [records_eq]; simp

theorem numbered_len (rs : List Bytes) : ∀ i, rs.length ≤ (numbered i rs).length := by
  induction rs with
  | nil => intro i; simp
  | cons r rs ih =>
    intro i
    have := ih (i + 1)
    have := catSsize_pos i
    simp only [numbered, List.length_append, List.length_cons]
    omega

theorem u64_lt (z : Int) : Time.u64 z < 2 ^ 64 := by
  have h1 := Int.emod_lt_of_pos z (show (0 : Int) < 2 ^ 64 by decide)
  have h2 := Int.emod_nonneg z (show (2 ^ 64 : Int) ≠ 0 by decide)
  unfold Time.u64
  omega

theorem convert_lt {v : Time.Env} {st : Time.Style} {x t : Nat} (hx : x < 2 ^ 64) (h : Time.convert v st .msec x = some t) : t < 2 ^ 64 := by
  have hm : ∀ y : Nat, some (y % 2 ^ 64) = some t → t < 2 ^ 64 := by
    intro y hy
    rw [← Option.some.inj hy]
    exact Nat.mod_lt y (Nat.two_pow_pos 64)
  cases st with
  | tsec => exact hm (x * 1000 + 999) h
  | minu => exact hm (x * 60 * 1000 + 59999) h
  | date =>
    obtain ⟨y, _, hy⟩ := Option.map_eq_some_iff.1 h
    rw [← hy]; exact u64_lt _
  | _ => rw [← Option.some.inj h]; exact hx

theorem lastMsec_lt {v : Time.Env} {db : Db} {d : Bytes} {t : Nat} (h : lastMsec v db d = some t) : t < 2 ^ 64 := by
  unfold lastMsec at h
  split at h
  · cases h; omega
  · split at h
    · cases h
    · obtain ⟨x, hx, h⟩ := Option.bind_eq_some_iff.1 h
      have hlt := getTime_lt hx
      obtain ⟨f, _, h⟩ := Option.bind_eq_some_iff.1 h
      replace h : (match Dyn.timeStyle f.style with
        | none => some x
        | some st => Time.convert v st .msec x) = some t := h
      split at h
      · cases h; exact hlt
      · rename_i st _
        exact convert_lt hlt h

/-- Records of a key and a table are added to those in memory. -/
theorem ioWrite_ok {lib : Lib} (L : ZipOk lib) {P : Db → Prop} {v : Time.Env} {limit : Nat} {a : Abs} {f f' : File} {pgs : List (List Rec)} {pend : List Rec}
    (h : St lib P a f pgs pend) (hsize : pend.length ≤ f.size ∧ f.size ≤ limit) {k s : Bytes} {ki si : Nat} {dbs : List Db} {d : Bytes} (hk : f.c.kd[ki]? = some k)
    (hs : f.c.sd[si]? = some (s, dbs)) (hbusy : a.busy = true) (hne : d ≠ []) (hlim : limit + d.length < 2 ^ 31)
    (hw : ioWrite lib v limit f (k, ki) (s, si) dbs d = some f') (hbody : f.c.body.length + 64 < 2 ^ 31) (hbody' : mainHead + f'.c.body.length < 2 ^ 64) :
    ∃ pgs' pend', St lib P { a with
      recs := a.recs ++ if d.length % (dbs.getLast?.map (·.size)).getD 0 = 0 then
        (records ((dbs.getLast?.map (·.size)).getD 0) (d.length / (dbs.getLast?.map (·.size)).getD 0) d).map fun r => ⟨k, s, r⟩ else [] } f' pgs' pend' ∧
      pend'.length ≤ f'.size ∧ f'.size ≤ limit := by
  have hsin := List.mem_of_getElem? hs
  have hkin := List.mem_of_getElem? hk
  obtain ⟨hgt, hdbs⟩ := h.core.inv.snames _ hsin
  obtain ⟨db, hdb⟩ : ∃ db, dbs.getLast? = some db := by
    cases hg : dbs.getLast? with
    | none => exact absurd (List.getLast?_eq_none_iff.1 hg) hdbs
    | some db => exact ⟨db, rfl⟩
  rw [hdb]
  simp only [Option.map_some, Option.getD_some]
  have hview : (tabView f.c.sd)[si]? = some (s, db.size) := by
    unfold tabView; rw [List.getElem?_map, hs]; simp [hdb]
  have hvin := List.mem_of_getElem? hview
  have hpos : 0 < db.size := h.core.size _ hvin
  unfold ioWrite at hw
  rw [hdb] at hw
  simp only [] at hw
  rw [if_neg (by omega)] at hw
  by_cases hmod : d.length % db.size = 0
  case neg =>
    rw [if_pos hmod] at hw
    rw [if_neg hmod, List.append_nil, ← Option.some.inj hw]
    exact ⟨pgs, pend, h, hsize⟩
  rw [if_neg (by simpa using hmod)] at hw
  rw [if_pos hmod]
  obtain ⟨cats, hcats, hw⟩ := Option.bind_eq_some_iff.1 hw
  obtain ⟨_, hlive⟩ := h.live cats hcats
  have hgk := h.core.inv.knames k hkin
  have hname : shortName k (some s) = nodeName k (some s) := by
    unfold shortName
    rw [List.take_of_length_le]
    have := hgk.len
    have := hgt.len
    simp only [nodeName, List.length_append, List.length_cons] at *
    omega
  rw [hname] at hw
  obtain ⟨old, hold⟩ : ∃ old, old = (getN cats (nodeName k (some s))).getD { kname := k, sname := s } := ⟨_, rfl⟩
  rw [← hold] at hw
  have hko : old.kname = k ∧ old.sname = s ∧ CatOk f.c.kd (tabView f.c.sd) f.pages (mine pend) (nodeName k (some s), old) := by
    cases hg : getN cats (nodeName k (some s)) with
    | none =>
      rw [hg] at hold
      simp only [Option.getD_none] at hold
      subst hold
      have hm : mine pend k s = [] := by
        cases hm : mine pend k s with
        | nil => rfl
        | cons x l =>
          have hx : x ∈ mine pend k s := by rw [hm]; simp
          obtain ⟨h1, h2, h3⟩ := mine_mem hx
          obtain ⟨e, he, h4, h5⟩ := hlive.all x.2 (tagFrom_mem h1)
          have := getN_mem hlive.diff he
          rw [(hlive.each e he).name, h4, h5, h2, h3, hg] at this
          cases this
      exact ⟨rfl, rfl, rfl, hkin, ⟨_, hvin⟩, fun _ => rfl, fun hq => absurd hm hq, by show (0 : Nat) < 256; omega, by show (0 : Nat) < 256; omega, by show (0 : Nat) < 2 ^ 64; omega, by show (0 : Nat) < 2 ^ 64; omega⟩
    | some o =>
      rw [hg] at hold
      simp only [Option.getD_some] at hold
      subst hold
      obtain ⟨i, e, e1, e2, e3⟩ := getN_some hg
      have he := hlive.each e (List.mem_of_getElem? e1)
      obtain ⟨n, hn⟩ := he.tab
      have e3' : sameN (nodeName k (some s)) e.1 = true := by simpa using e3
      rw [he.name] at e3'
      obtain ⟨g1, g2⟩ := node_eq h.core.inv hkin he.key ⟨_, hsin⟩ (tabView_mem hn) e3'
      rw [← e2]
      exact ⟨g1.symm, g2.symm, by rw [← g1, ← g2], he.key, he.tab, he.none, he.some, he.range⟩
  obtain ⟨hk1, hs1, hcat⟩ := hko
  obtain ⟨t, hopen, hw⟩ := Option.bind_eq_some_iff.1 hw
  obtain ⟨ms, hms, hw⟩ := Option.bind_eq_some_iff.1 hw
  have hrs : slices db.size d = records db.size (d.length / db.size) d := slices_eq _ _
  rw [hrs] at hw
  obtain ⟨rs, hrs'⟩ : ∃ rs, rs = records db.size (d.length / db.size) d := ⟨_, rfl⟩
  rw [← hrs'] at hw ⊢
  have hrl : ∀ r ∈ rs, r.length = db.size := by rw [hrs']; exact records_len (Nat.div_mul_le_self _ _)
  have hrn : rs.length ≤ d.length := by rw [hrs', records_length]; exact Nat.div_le_self _ _
  have hr0 : rs ≠ [] := by
    intro e
    have h1 := records_length db.size (d.length / db.size) d
    rw [← hrs', e] at h1
    have h2 := Nat.div_add_mod d.length db.size
    rw [← h1, hmod] at h2
    simp only [List.length_nil, Nat.mul_zero, Nat.add_zero] at h2
    exact hne (List.length_eq_zero_iff.1 h2.symm)
  obtain ⟨news, hnews⟩ : ∃ news : List Rec, news = rs.map fun r => ⟨k, s, r⟩ := ⟨_, rfl⟩
  rw [← hnews]
  have hnk : ∀ r ∈ news, r.key = k ∧ r.tab = s ∧ r.data.length = db.size := by
    intro r hr
    rw [hnews] at hr
    obtain ⟨x, hx, rfl⟩ := List.mem_map.1 hr
    exact ⟨rfl, rfl, hrl x hx⟩
  have hnn : news.length = rs.length := by rw [hnews]; simp
  have hmine : mine (pend ++ news) k s = mine pend k s ++ tagFrom pend.length news := by
    rw [mine_append]
    congr 1
    rw [List.filter_eq_self]
    intro e he
    have := hnk e.2 (tagFrom_mem he)
    simp [this.1, this.2.1]
  have hother : ∀ k' s', ¬ (k' = k ∧ s' = s) → mine (pend ++ news) k' s' = mine pend k' s' := by
    intro k' s' hne
    rw [mine_append]
    have : (tagFrom pend.length news).filter (fun e => e.2.key == k' && e.2.tab == s') = [] := by
      rw [List.filter_eq_nil_iff]
      intro e he hb
      have := hnk e.2 (tagFrom_mem he)
      simp only [Bool.and_eq_true, beq_iff_eq] at hb
      exact hne ⟨by rw [← hb.1, this.1], by rw [← hb.2, this.2.1]⟩
    rw [this, List.append_nil]
  have hpg : f.pages < 2 ^ 64 := by
    rw [h.pages]
    have := h.core.pnum
    omega
  have hki : ki < 2 ^ 31 := by
    have := (List.getElem?_eq_some_iff.1 hk).1
    have := h.core.knum
    omega
  have hsi : si < 2 ^ 31 := by
    have := (List.getElem?_eq_some_iff.1 hs).1
    have := h.core.snum
    omega
  -- the block in memory
  have hpre : t.kname = k ∧ t.sname = s ∧ old.mem.length ≤ t.mem.length ∧ (t.win.ktype < 256 ∧ t.win.start < 2 ^ 64) ∧
      ∃ ki si, t.mem = catSsize ki ++ catSsize si ++ encQ (mine pend k s) ∧ ki < 2 ^ 31 ∧ si < 2 ^ 31 ∧ f.c.kd[ki]? = some k ∧ (tabView f.c.sd)[si]? = some (s, db.size) ∧
        ∀ e ∈ mine pend k s, e.1 < 2 ^ 31 ∧ e.2.data.length = db.size := by
    by_cases hm : mine pend k s = []
    · have hom : old.mem = [] := hcat.none (by simp only [hk1, hs1]; exact hm)
      unfold openCat at hopen
      rw [if_pos hom] at hopen
      obtain ⟨tm, htm, hopen⟩ := Option.map_eq_some_iff.1 hopen
      rw [← hopen]
      refine ⟨hk1, hs1, by rw [hom]; simp, ⟨hcat.range.1, getTime_lt htm⟩, ki, si, ?_, hki, hsi, hk, hview, ?_⟩
      · rw [hm]; simp [encQ]
      · rw [hm]; intro e he; cases he
    · obtain ⟨⟨⟨ki', si', n, b1, b2, b3, b4, b5, b6, b7⟩, _⟩, _⟩ := hcat.some (by simp only [hk1, hs1]; exact hm)
      simp only [hk1, hs1] at b1 b4 b5 b7
      have hom : old.mem ≠ [] := by
        rw [b1]
        intro e
        have := catSsize_pos ki'
        have := congrArg List.length e
        simp only [List.length_append, List.length_nil] at this
        omega
      unfold openCat at hopen
      rw [if_neg hom] at hopen
      rw [← Option.some.inj hopen]
      have hnsz : n = db.size := view_diff h.core.inv.sdiff (List.mem_of_getElem? b5) hvin
      exact ⟨hk1, hs1, Nat.le_refl _, ⟨hcat.range.1, hcat.range.2.2.1⟩, ki', si', b1, b2, b3, b4, by rw [← hnsz]; exact b5, by rw [← hnsz]; exact b7⟩
  obtain ⟨t1, t2, t3, t4, kx, sx, t5, t6, t7, t8, t9, t10⟩ := hpre
  obtain ⟨t', ht'⟩ : ∃ t' : Catch, t' = { t with mem := t.mem ++ numbered f.series rs, win := { t.win with sdict := dbs.length % 256, stop := f.pages } } := ⟨_, rfl⟩
  obtain ⟨f1, hf1⟩ : ∃ f1 : File, f1 = { f with
      cats := some (setN cats (nodeName k (some s)) t').1
      count := f.count + rs.length
      size := f.size + (t'.mem.length - old.mem.length)
      series := f.series + rs.length
      msec := max f.msec ms } := ⟨_, rfl⟩
  have hw1 : (if limit < f1.size then flush lib f1 else some f1) = some f' := by rw [hf1, ht']; exact hw
  have hmem' : t'.mem = catSsize kx ++ catSsize sx ++ encQ (mine (pend ++ news) k s) := by
    rw [ht', hmine, encQ_append, t5, h.series, numbered_enc k s, ← hnews]
    simp
  have hnum := numbered_len rs f.series
  have hst1 : St lib P { a with recs := a.recs ++ news } f1 pgs (pend ++ news) := by
    rw [hf1]
    refine ⟨h.core, h.keys, h.tabs, ?_, ?_, h.ends, h.ecnt, h.pages, ?_, ?_, (by intro e; cases e), ?_⟩
    · show a.recs ++ news = _
      rw [h.recs, List.append_assoc]
    · intro r hr
      rcases List.mem_append.1 hr with hr | hr
      · exact h.good r hr
      · obtain ⟨g1, g2, g3⟩ := hnk r hr
        rw [g1, g2, g3]
        exact ⟨hkin, hvin⟩
    · have h1 := h.msec
      have h2 := lastMsec_lt hms
      show max f.msec ms < 2 ^ 64
      omega
    · show f.series + rs.length = (pend ++ news).length
      rw [h.series, List.length_append, hnn]
    · intro cs hcs
      have hcs : cs = (setN cats (nodeName k (some s)) t').1 := (Option.some.inj hcs).symm
      refine ⟨hbusy, ?_⟩
      have hdiff : cs.Pairwise fun a b => sameN a.1 b.1 = false := by rw [hcs]; exact setN_diff _ _ _ hlive.diff
      have htk : t'.kname = k := by rw [ht']; exact t1
      have hts : t'.sname = s := by rw [ht']; exact t2
      have hnew : ∀ e : Bytes × Catch, e.1 = nodeName k (some s) → e.2 = t' → CatOk f.c.kd (tabView f.c.sd) f.pages (mine (pend ++ news)) e := by
        intro e he1 he2
        have hnz : mine (pend ++ news) k s ≠ [] := by
          rw [hmine]
          intro e
          have h1 := (List.append_eq_nil_iff.1 e).2
          have h2 := tagFrom_map news pend.length
          rw [h1] at h2
          simp only [List.map_nil] at h2
          rw [← h2] at hnn
          exact hr0 (List.length_eq_zero_iff.1 hnn.symm)
        refine ⟨by rw [he1, he2, htk, hts], by rw [he2, htk]; exact hkin, by rw [he2, hts]; exact ⟨_, hvin⟩, ?_, ?_, ?_⟩
        · intro hq; rw [he2, htk, hts] at hq; exact absurd hq hnz
        · intro _
          rw [he2, htk, hts]
          refine ⟨⟨⟨kx, sx, db.size, hmem', t6, t7, t8, t9, hpos, ?_⟩, ?_⟩, by rw [ht']⟩
          · intro x hx
            rw [hmine] at hx
            rcases List.mem_append.1 hx with hx | hx
            · exact t10 x hx
            · refine ⟨?_, (hnk x.2 (tagFrom_mem hx)).2.2⟩
              have := (tagFrom_range _ _ x hx).2
              omega
          · intro x hx
            exact ⟨(mine_mem hx).2.1, (mine_mem hx).2.2⟩
        · rw [he2, ht']
          exact ⟨t4.1, by show dbs.length % 256 < 256; omega, t4.2, hpg⟩
      refine ⟨hdiff, ?_, ?_⟩
      · intro e he
        have hg := getN_mem hdiff he
        rw [hcs, getN_setN] at hg
        by_cases hsame : sameN e.1 (nodeName k (some s)) = true
        · rw [if_pos hsame] at hg
          have he2 : e.2 = t' := (Option.some.inj hg).symm
          rw [hcs] at he
          rcases mem_setN he with he | ⟨he, _⟩ | ⟨o, ho, ho1, ho2, he⟩
          · refine hnew e ?_ he2
            rw [(hlive.each e he).name, he2, htk, hts]
          · exact hnew e (by rw [he]) he2
          · refine hnew e ?_ he2
            rw [he]
            show o.1 = _
            have hoc := hlive.each o ho
            obtain ⟨n, hn⟩ := hoc.tab
            have ho1' := ho1
            rw [hoc.name] at ho1'
            obtain ⟨g1, g2⟩ := node_eq h.core.inv hkin hoc.key ⟨_, hsin⟩ (tabView_mem hn) ho1'
            rw [hoc.name, ← g1, ← g2]
        · rw [if_neg hsame] at hg
          rw [hcs] at he
          have hec : e ∈ cats := by
            rcases mem_setN he with he | ⟨he, _⟩ | ⟨o, ho, ho1, ho2, he⟩
            · exact he
            · exact absurd (by rw [he]; exact sameN_refl _) hsame
            · exact absurd (by rw [he, sameN_comm]; exact ho1) hsame
          have hoc := hlive.each e hec
          have hneq : ¬ (e.2.kname = k ∧ e.2.sname = s) := by
            rintro ⟨g1, g2⟩
            apply hsame
            rw [hoc.name, g1, g2]
            exact sameN_refl _
          have hmo := hother _ _ hneq
          exact ⟨hoc.name, hoc.key, hoc.tab, fun hq => hoc.none (by rw [← hmo]; exact hq), fun hq => by
            rw [hmo] at hq ⊢; exact hoc.some hq, hoc.range⟩
      · intro r hr
        have hget : ∀ n c, getN cs n = some c → sameN n (nodeName c.kname (some c.sname)) = true → ∃ e ∈ cs, e.2 = c := by
          intro n c hg _
          obtain ⟨i, e, e1, e2, _⟩ := getN_some hg
          exact ⟨e, List.mem_of_getElem? e1, e2⟩
        by_cases hrk : r.key = k ∧ r.tab = s
        · have : getN cs (nodeName k (some s)) = some t' := by rw [hcs, getN_setN, if_pos (sameN_refl _)]
          obtain ⟨e, he, he2⟩ := hget _ _ this (by rw [htk, hts]; exact sameN_refl _)
          exact ⟨e, he, by rw [he2, htk, hrk.1], by rw [he2, hts, hrk.2]⟩
        · have hrp : r ∈ pend := by
            rcases List.mem_append.1 hr with hr | hr
            · exact hr
            · exact absurd ⟨(hnk r hr).1, (hnk r hr).2.1⟩ hrk
          obtain ⟨o, ho, ho1, ho2⟩ := hlive.all r hrp
          have hoc := hlive.each o ho
          obtain ⟨n, hn⟩ := hoc.tab
          have hdn : ¬ sameN o.1 (nodeName k (some s)) = true := by
            intro hsm
            rw [hoc.name] at hsm
            obtain ⟨g1, g2⟩ := node_eq h.core.inv hoc.key hkin (tabView_mem hn) ⟨_, hsin⟩ hsm
            exact hrk ⟨by rw [← ho1, g1], by rw [← ho2, g2]⟩
          have : getN cs o.1 = some o.2 := by rw [hcs, getN_setN, if_neg hdn]; exact getN_mem hlive.diff ho
          obtain ⟨e, he, he2⟩ := hget _ _ this (by rw [hoc.name]; exact sameN_refl _)
          exact ⟨e, he, by rw [he2, ho1], by rw [he2, ho2]⟩
  have hsz1 : (pend ++ news).length ≤ f1.size := by
    rw [hf1, List.length_append, hnn]
    show pend.length + rs.length ≤ f.size + (t'.mem.length - old.mem.length)
    have : t'.mem.length = t.mem.length + (numbered f.series rs).length := by rw [ht']; simp
    omega
  split at hw1
  · obtain ⟨g1, g2⟩ := flush_ok L hst1 hw1 hbody'
    exact ⟨_, _, g1, by simp, by rw [g2]; omega⟩
  · rename_i hle
    rw [← Option.some.inj hw1]
    exact ⟨_, _, hst1, hsz1, by omega⟩

end Sis.Sno
