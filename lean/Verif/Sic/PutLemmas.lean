import Verif.Sic.CallLemmas
/- Lemmas on an open file of compressed records: records are written. -/
namespace Sis.Sic
open Sis Sis.Disk Sis.Sdb
open Sis.Sno (Rec More EndOk inv_body addName spell Act foldb find_same addName_eq spell_eq getTab_view slices slices_eq records_len)
open Sis.Dyn (sameN getN setN Db getN_some sameN_refl)

theorem lastOf_snoc (now : List Rec) (k s r k' s' : Bytes) : lastOf (now ++ [⟨k, s, r⟩]) k' s' = if k' = k ∧ s' = s then some r else lastOf now k' s' := by
  unfold lastOf
  rw [List.filter_append]
  by_cases h : k' = k ∧ s' = s
  · rw [if_pos h, h.1, h.2, List.filter_cons_of_pos (by simp), List.filter_nil, List.getLast?_append]
    rfl
  · rw [if_neg h, List.filter_cons_of_neg, List.filter_nil, List.append_nil]
    simp only [Bool.and_eq_true, beq_iff_eq]
    rintro ⟨h1, h2⟩
    exact h ⟨h1.symm, h2.symm⟩

theorem diff_index {α : Type} {l : List α} {R : α → α → Bool} (hr : ∀ x, R x x = true) (hd : l.Pairwise fun a b => R a b = false) {i j : Nat} {x : α} (hi : l[i]? = some x) (hj : l[j]? = some x) : i = j := by
  obtain ⟨hi1, hi2⟩ := List.getElem?_eq_some_iff.1 hi
  obtain ⟨hj1, hj2⟩ := List.getElem?_eq_some_iff.1 hj
  have hp := List.pairwise_iff_getElem.1 hd
  rcases Nat.lt_trichotomy i j with h | h | h
  · have := hp i j hi1 hj1 h
    rw [hi2, hj2, hr] at this
    cases this
  · exact h
  · have := hp j i hj1 hi1 h
    rw [hi2, hj2, hr] at this
    cases this

theorem Base.tdiff {lib : Lib} {P : Db → Prop} {keys : List Bytes} {tabs : List (Bytes × Db)} {f : File} {bs : List (UInt8 × Bytes)} (h : Base lib P keys tabs f bs) :
    tabs.Pairwise fun a b => sameN a.1 b.1 = false := by
  have := h.inv.sdiff
  rw [h.tabs] at this
  unfold sdOf at this
  rw [List.pairwise_map] at this
  exact this

theorem Base.kdiff {lib : Lib} {P : Db → Prop} {keys : List Bytes} {tabs : List (Bytes × Db)} {f : File} {bs : List (UInt8 × Bytes)} (h : Base lib P keys tabs f bs) :
    keys.Pairwise fun a b => sameN a b = false := by
  have := h.inv.kdiff
  rw [h.keys] at this
  exact this

theorem lastN_snoc {keys : List Bytes} {tabs : List (Bytes × Db)} (hk : keys.Pairwise fun a b => sameN a b = false) (ht : tabs.Pairwise fun a b => sameN a.1 b.1 = false)
    {ki si : Nat} {k : Bytes} {t : Bytes × Db} (h1 : keys[ki]? = some k) (h2 : tabs[si]? = some t) (now : List Rec) (r : Bytes) {k' s' : Nat} {a : Bytes}
    (h : if k' = ki ∧ s' = si then a = r else lastN keys tabs now k' s' a) : lastN keys tabs (now ++ [⟨k, t.1, r⟩]) k' s' a := by
  split at h
  · rename_i he
    refine ⟨k, t, by rw [he.1]; exact h1, by rw [he.2]; exact h2, ?_⟩
    rw [lastOf_snoc, if_pos ⟨rfl, rfl⟩, h]
  · rename_i he
    obtain ⟨kn, tn, g1, g2, g3⟩ := h
    refine ⟨kn, tn, g1, g2, ?_⟩
    rw [lastOf_snoc, if_neg ?_]
    · exact g3
    · rintro ⟨rfl, e2⟩
      have a1 := diff_index (R := sameN) sameN_refl hk g1 h1
      have ht' : (tabs.map (·.1)).Pairwise fun a b => sameN a b = false := by rw [List.pairwise_map]; exact ht
      have a2 := diff_index (R := sameN) sameN_refl ht' (i := s') (j := si) (x := t.1) (by rw [List.getElem?_map, g2, ← e2]; rfl) (by rw [List.getElem?_map, h2]; rfl)
      exact he ⟨a1, a2⟩

theorem putRec_grow {ki si : Nat} {f f' : File} {r : Bytes} (h : putRec ki si f r = some f') : ∃ x, f'.c.body = f.c.body ++ x := by
  unfold putRec at h
  obtain ⟨z, _, h⟩ := Option.bind_eq_some_iff.1 h
  obtain ⟨⟨n, B, z'⟩, _, h⟩ := Option.map_eq_some_iff.1 h
  obtain ⟨m, hm⟩ := putBlocks_eq B f
  rw [← h]
  refine ⟨?_, ?_⟩
  rotate_left
  · show (putBlocks f B).c.body = _
    rw [hm]

theorem putRecs_grow {ki si : Nat} (rs : List Bytes) : ∀ {f f' : File}, rs.foldlM (putRec ki si) f = some f' → ∃ x, f'.c.body = f.c.body ++ x := by
  induction rs with
  | nil => intro f f' h; have h : some f = some f' := by simpa using h
           cases h; exact ⟨[], by simp⟩
  | cons r rs ih =>
    intro f f' h
    rw [List.foldlM_cons] at h
    obtain ⟨f1, h1, h2⟩ := Option.bind_eq_some_iff.1 h
    obtain ⟨x, hx⟩ := putRec_grow h1
    obtain ⟨y, hy⟩ := ih h2
    exact ⟨x ++ y, by rw [hy, hx, List.append_assoc]⟩

/-- The loop over the records. -/
theorem putRecs_ok {lib : Lib} {P : Db → Prop} {keys : List Bytes} {tabs : List (Bytes × Db)} {ki si : Nat} {k : Bytes} {t : Bytes × Db} (hk : keys[ki]? = some k)
    (ht : tabs[si]? = some t) (new : List Bytes) : ∀ {f f' : File} {bs : List (UInt8 × Bytes)} {rs : List Zip.Rec} {now : List Rec} {z : Zip.Z},
    Base lib P keys tabs f bs → f.z = some z → Live (dbsOf tabs) keys.length (sics bs) rs z (lastN keys tabs now) → (∀ r ∈ new, r.length = t.2.size) →
    Runs tabs (now ++ new.map fun r => ⟨k, t.1, r⟩) → new.foldlM (putRec ki si) f = some f' → f'.c.body.length < 2 ^ 64 →
    ∃ bs' z', Base lib P keys tabs f' bs' ∧ f'.z = some z' ∧
      Live (dbsOf tabs) keys.length (sics bs') (rs ++ new.map fun r => (ki, si, r)) z' (lastN keys tabs (now ++ new.map fun r => ⟨k, t.1, r⟩)) := by
  induction new with
  | nil =>
    intro f f' bs rs now z hb hz hl _ _ hf _
    have hf : some f = some f' := by simpa using hf
    cases hf
    exact ⟨bs, z, hb, hz, by simpa using hl⟩
  | cons r new ih =>
    intro f f' bs rs now z hb hz hl hlen hruns hf hsz
    rw [List.foldlM_cons] at hf
    obtain ⟨f1, h1, h2⟩ := Option.bind_eq_some_iff.1 hf
    obtain ⟨y, hy⟩ := putRecs_grow new h2
    unfold putRec at h1
    rw [hz] at h1
    simp only [Option.bind_some] at h1
    obtain ⟨⟨n, B, z'⟩, hst, h1⟩ := Option.map_eq_some_iff.1 h1
    simp only at h1
    have htm := List.mem_of_getElem? ht
    obtain ⟨g1, g2⟩ := hruns now ⟨k, t.1, r⟩ (new.map fun r => ⟨k, t.1, r⟩) (by simp) t.2 htm
    have hbody : f1.c.body.length < 2 ^ 64 := by rw [hy, List.length_append] at hsz; omega
    have hb1 : Base lib P keys tabs f1 (bs ++ B.map fun b => (sicHead, b)) := by
      subst h1
      have := hb.put B hbody
      exact ⟨this.inv, this.newk, this.news, this.keys, this.tabs, this.plain, this.idx, this.knum, this.snum, this.kcnt, this.scnt, this.ends, this.ecnt, this.msec, this.body, this.blocks⟩
    have hpl : ∀ db ∈ dbsOf tabs, Zip.Plain db := by
      intro db hdb
      obtain ⟨x, hx, rfl⟩ := List.mem_map.1 hdb
      exact (hb.plain x hx).1
    have hl1 := hl.one hpl (k := ki) (s := si) (db := t.2) (by unfold dbsOf; rw [List.getElem?_map, ht]; rfl) (List.getElem?_eq_some_iff.1 hk).1 (hlen r (by simp)) (hb.plain t htm).2 g1 (by
      rintro a ⟨kn, tn, e1, e2, e3⟩
      rw [hk] at e1
      rw [ht] at e2
      cases e1
      cases e2
      exact g2 a e3) hst
    have hl2 := hl1.imp (last' := lastN keys tabs (now ++ [⟨k, t.1, r⟩])) fun k' s' a h => lastN_snoc hb.kdiff hb.tdiff hk ht now r h
    have hz1 : f1.z = some z' := by rw [← h1]
    have hsb : sics (bs ++ B.map fun b => (sicHead, b)) = sics bs ++ B := by rw [sics_append, sics_all]
    rw [← hsb] at hl2
    obtain ⟨bs', z2, i1, i2, i3⟩ := ih hb1 hz1 hl2 (fun r hr => hlen r (by simp [hr])) (by
      rw [List.append_assoc]; simpa using hruns) h2 hsz
    refine ⟨bs', z2, i1, i2, ?_⟩
    simp only [List.append_assoc, List.map_cons, List.singleton_append] at i3 ⊢
    exact i3

theorem firstMsec_lt {v : Time.Env} {db : Db} {old t : Nat} {d : Bytes} (ho : old < 2 ^ 64) (h : firstMsec v db old d = some t) : t < 2 ^ 64 := by
  unfold firstMsec at h
  split at h
  · cases h; exact ho
  · split at h
    · cases h; exact Nat.two_pow_pos 64
    · obtain ⟨x, hx, h⟩ := Option.bind_eq_some_iff.1 h
      have hlt := getTime_lt hx
      obtain ⟨f, _, h⟩ := Option.bind_eq_some_iff.1 h
      replace h : (match Dyn.timeStyle f.style with
        | none => some x
        | some st => Time.convert v st .msec x) = some t := h
      split at h
      · cases h; exact hlt
      · rename_i st _
        exact Sno.convert_lt hlt h

theorem newPage_grow {lib : Lib} {f f' : File} (h : newPage lib f = some f') : ∃ x, f'.c.body = f.c.body ++ x := by
  unfold newPage at h
  obtain ⟨z, _, h⟩ := Option.bind_eq_some_iff.1 h
  obtain ⟨⟨B, z'⟩, _, h⟩ := Option.map_eq_some_iff.1 h
  obtain ⟨m, hm⟩ := putBlocks_eq B (putNew lib f)
  rw [← h]
  refine ⟨?_, ?_⟩
  rotate_left
  · show (putBlocks (putNew lib f) B).c.body = _
    rw [hm]
    show (f.c.body ++ _) ++ _ = f.c.body ++ _
    rw [List.append_assoc]

/-- A page is begun. -/
theorem newPage_ok {lib : Lib} {P : Db → Prop} {keys : List Bytes} {tabs : List (Bytes × Db)} {f f' : File} {bs : List (UInt8 × Bytes)} {rs : List Zip.Rec} {z : Zip.Z}
    {last : Nat → Nat → Bytes → Prop} (hb : Base lib P keys tabs f bs) (hz : f.z = some z) (hl : Live (dbsOf tabs) keys.length (sics bs) rs z last)
    (h : newPage lib f = some f') (hsz : mainHead + f'.c.body.length < 2 ^ 64) :
    ∃ bs' z', Base lib P keys tabs f' bs' ∧ f'.z = some z' ∧ Live (dbsOf tabs) keys.length (sics bs') rs z' last := by
  unfold newPage at h
  rw [hz] at h
  simp only [Option.bind_some] at h
  obtain ⟨⟨B, z'⟩, hst, h⟩ := Option.map_eq_some_iff.1 h
  simp only at h
  obtain ⟨m, hm⟩ := putBlocks_eq B (putNew lib f)
  have hbd : f'.c.body.length = (putNew lib f).c.body.length + ((B.map fun b => (sicHead, b)).flatMap fun b => encRec b.1 b.2).length := by
    rw [← h]
    show (putBlocks (putNew lib f) B).c.body.length = _
    rw [hm]
    simp
  obtain ⟨d, hd⟩ : ∃ d, d = catSsize f.msec ++ catSsize (f.pages + 1) ++ catSsize f.count := ⟨_, rfl⟩
  have hp : packed lib false hidNew d = (headByte 1 0 hidNew, d) := by simp [packed]
  have hblk : block lib false hidNew d = encRec (headByte 1 0 hidNew) d := by simp [block, hp]
  have hlen := encRec_len (headByte 1 0 hidNew) d
  have hnb : (putNew lib f).c = { f.c with body := f.c.body ++ encRec (headByte 1 0 hidNew) d } := by unfold putNew; rw [← hd, hblk]
  have hnn : (putNew lib f).news = f.news ++ [{ active := 1, offset := mainHead + f.c.body.length, size := (encRec (headByte 1 0 hidNew) d).length, start := f.msec }] := by
    unfold putNew; rw [← hd, hblk]
  have hnl : (putNew lib f).c.body.length = f.c.body.length + (encRec (headByte 1 0 hidNew) d).length := by rw [hnb]; simp
  have hb1 : Base lib P keys tabs (putNew lib f) (bs ++ [(headByte 1 0 hidNew, d)]) := by
    refine hb.add _ ?_ (by rw [hnb]; simp) ?_ ?_ (by show (0 : Nat) < 2 ^ 64; omega)
    · intro b hbm
      rw [List.mem_singleton.1 hbm]
      exact ⟨by show hidOf (headByte 1 0 hidNew) ≠ 0; decide, by show hidOf (headByte 1 0 hidNew) ≠ 31; decide, by show d.length < 2 ^ 64; omega⟩
    · intro u hu
      rw [hnn] at hu
      rcases List.mem_append.1 hu with hu | hu
      · exact .inl hu
      · rw [List.mem_singleton.1 hu]
        exact .inr ⟨by show (0 : Nat) < 2 ^ 16; omega, by show mainHead + f.c.body.length < 2 ^ 64; omega,
          by show (encRec (headByte 1 0 hidNew) d).length < 2 ^ 64; omega, hb.msec⟩
    · have := hb.ecnt
      rw [hnn, hnl, List.length_append, List.length_singleton]
      omega
  have hb2 := hb1.put B (by
    have : f'.c.body = (putBlocks (putNew lib f) B).c.body := by rw [← h]
    rw [← this]; omega)
  refine ⟨bs ++ [(headByte 1 0 hidNew, d)] ++ B.map fun b => (sicHead, b), z', ?_, by rw [← h], ?_⟩
  · rw [← h]
    exact ⟨hb2.inv, hb2.newk, hb2.news, hb2.keys, hb2.tabs, hb2.plain, hb2.idx, hb2.knum, hb2.snum, hb2.kcnt, hb2.scnt, hb2.ends, hb2.ecnt, hb2.msec, hb2.body, hb2.blocks⟩
  · rw [sics_append, sics_append, sics_all, sics_none (bs := [(headByte 1 0 hidNew, d)]), List.append_nil]
    · exact hl.restart hst
    · intro b hbm
      rw [List.mem_singleton.1 hbm]
      show hidOf (headByte 1 0 hidNew) ≠ hidSic
      decide

theorem ioWrite_grow {lib : Lib} {v : Time.Env} {limit : Nat} {f f' : File} {ki si : Nat} {dbs : List Db} {d : Bytes} (h : ioWrite lib v limit f ki si dbs d = some f') :
    ∃ x, f'.c.body = f.c.body ++ x := by
  unfold ioWrite at h
  split at h
  · cases h; exact ⟨[], by simp⟩
  split at h
  · cases h
  split at h
  · cases h; exact ⟨[], by simp⟩
  obtain ⟨ms, _, h⟩ := Option.bind_eq_some_iff.1 h
  obtain ⟨f1, h1, h⟩ := Option.bind_eq_some_iff.1 h
  have hg : ∃ x, f1.c.body = f.c.body ++ x := by
    split at h1
    · have h2 := newPage_grow h1
      exact h2
    · cases h1; exact ⟨[], by simp⟩
  obtain ⟨x, hx⟩ := hg
  split at h
  · obtain ⟨y, hy⟩ := putRecs_grow _ h
    exact ⟨x ++ y, by rw [hy]; show f1.c.body ++ y = _; rw [hx, List.append_assoc]⟩
  · cases h

/-- Records of a key and a table are written. -/
theorem ioWrite_ok {lib : Lib} {P : Db → Prop} {v : Time.Env} {limit : Nat} {a : Abs} {f f' : File} {bs : List (UInt8 × Bytes)} {rs : List Zip.Rec} (h : St lib P a f bs rs)
    {ki si : Nat} {k : Bytes} {t : Bytes × Db} (hk : a.keys[ki]? = some k) (ht : a.tabs[si]? = some t) {now : List Rec} (hn : a.now = some now) {d : Bytes}
    {new : List Rec} (hnew : new = if d.length % t.2.size = 0 then (records t.2.size (d.length / t.2.size) d).map fun r => ⟨k, t.1, r⟩ else [])
    (hr : Runs a.tabs (now ++ new)) (hw : ioWrite lib v limit f ki si [t.2] d = some f') (hsz : mainHead + f'.c.body.length < 2 ^ 64) :
    ∃ bs' rs', St lib P { a with recs := a.recs ++ new, now := some (now ++ new) } f' bs' rs' := by
  obtain ⟨z, hz, htn, hl⟩ := h.busy hn
  have hki := (List.getElem?_eq_some_iff.1 hk).1
  have hsi := (List.getElem?_eq_some_iff.1 ht).1
  unfold ioWrite at hw
  simp only [List.getLast?_singleton] at hw
  split at hw
  · cases hw
  rename_i hpos
  by_cases hm : d.length % t.2.size = 0
  · rw [if_neg (by simpa using hm)] at hw
    rw [if_pos hm] at hnew
    obtain ⟨ms, hms, hw⟩ := Option.bind_eq_some_iff.1 hw
    obtain ⟨f1, h1, hw⟩ := Option.bind_eq_some_iff.1 hw
    have hmlt := firstMsec_lt h.base.msec hms
    split at hw
    · obtain ⟨y, hy⟩ := putRecs_grow _ hw
      have hlen1 : mainHead + f1.c.body.length < 2 ^ 64 := by
        rw [hy, List.length_append] at hsz
        have : ({ f1 with count := f1.count + d.length / t.2.size } : File).c.body.length = f1.c.body.length := rfl
        omega
      have hb0 : Base lib P a.keys a.tabs { f with msec := ms } bs :=
        have hb := h.base
        ⟨hb.inv, hb.newk, hb.news, hb.keys, hb.tabs, hb.plain, hb.idx, hb.knum, hb.snum, hb.kcnt, hb.scnt, hb.ends, hb.ecnt, hmlt, hb.body, hb.blocks⟩
      have hp : ∃ bs1 z1, Base lib P a.keys a.tabs f1 bs1 ∧ f1.z = some z1 ∧ Live (dbsOf a.tabs) a.keys.length (sics bs1) rs z1 (lastN a.keys a.tabs now) := by
        split at h1
        · exact newPage_ok hb0 hz hl h1 hlen1
        · cases h1; exact ⟨bs, z, hb0, hz, hl⟩
      obtain ⟨bs1, z1, b1, b2, b3⟩ := hp
      have hb2 : Base lib P a.keys a.tabs { f1 with count := f1.count + d.length / t.2.size } bs1 :=
        ⟨b1.inv, b1.newk, b1.news, b1.keys, b1.tabs, b1.plain, b1.idx, b1.knum, b1.snum, b1.kcnt, b1.scnt, b1.ends, b1.ecnt, b1.msec, b1.body, b1.blocks⟩
      rw [slices_eq] at hw
      rw [hnew] at hr ⊢
      obtain ⟨bs', z', c1, c2, c3⟩ := putRecs_ok hk ht _ hb2 b2 b3 (records_len (Nat.div_mul_le_self _ _)) hr hw (by omega)
      refine ⟨bs', rs ++ (records t.2.size (d.length / t.2.size) d).map fun r => (ki, si, r), c1, ?_, ?_, fun e => absurd e htn, (by intro e; rw [c2] at e; cases e), ?_⟩
      · show a.recs ++ _ = List.map (named a.keys a.tabs) _
        rw [List.map_append, ← h.recs, List.map_map]
        congr 1
        apply List.map_congr_left
        intro r _
        simp [named, hk, ht]
      · intro x hx
        rcases List.mem_append.1 hx with hx | hx
        · exact h.rng x hx
        · obtain ⟨r, _, rfl⟩ := List.mem_map.1 hx
          exact ⟨hki, hsi⟩
      · intro z2 hz2
        rw [c2] at hz2
        cases hz2
        exact ⟨htn, _, rfl, c3⟩
    · cases hw
  · rw [if_pos (by simpa using hm)] at hw
    rw [if_neg hm] at hnew
    have hw : some f = some f' := hw
    cases hw
    subst hnew
    simp only [List.append_nil]
    refine ⟨bs, rs, ?_⟩
    have e : ({ a with now := some now } : Abs) = a := by rw [← hn]
    rw [e]
    exact h

/-- A key is added while records are written. -/
theorem busy_key {lib : Lib} {P : Db → Prop} {a : Abs} {f : File} {bs : List (UInt8 × Bytes)} {rs : List Zip.Rec} (h : St lib P a f bs rs) {z z' : Zip.Z} (hz : f.z = some z)
    {r : Int} (ha : Zip.addKey z 1 = some (r, z')) {k : Bytes} (hk : GoodKey k) (hnew : (getKey f.c.kd k).isSome = false)
    (hsz : mainHead + (writeKeys lib (setKey f.c k)).body.length < 2 ^ 64) :
    ∃ bs', St lib P { a with keys := addName a.keys k } { f with c := writeKeys lib (setKey f.c k), z := some z' } bs' rs := by
  obtain ⟨nb, hb, hs⟩ := h.base.keysOk (l := [k]) (by simpa using hk) (by simpa using hsz)
  simp only [List.foldl_cons, List.foldl_nil] at hb
  have hp : a.keys <+: addName a.keys k := addNames_pre [k] a.keys
  have hlen : (addName a.keys k).length = a.keys.length + 1 := by
    rw [addName_eq, ← h.base.keys, hnew]; simp
  have hsb : sics (bs ++ nb) = sics bs := by rw [sics_append, hs, List.append_nil]
  obtain ⟨htn, now, hn, hl⟩ := h.live z hz
  refine ⟨bs ++ nb, ⟨hb.inv, hb.newk, hb.news, hb.keys, hb.tabs, hb.plain, hb.idx, hb.knum, hb.snum, hb.kcnt, hb.scnt, hb.ends, hb.ecnt, hb.msec, hb.body, hb.blocks⟩, ?_, ?_, ?_,
    (by intro e; cases e), ?_⟩
  · show a.recs = rs.map (named (addName a.keys k) a.tabs)
    rw [named_mono hp (List.prefix_refl _) h.rng]; exact h.recs
  · intro x hx
    have hx := h.rng x hx
    have := hp.length_le
    exact ⟨by show x.1 < (addName a.keys k).length; omega, hx.2⟩
  · intro he; rw [hsb]; exact h.empty he
  · intro z2 hz2
    have hz2 : some z' = some z2 := hz2
    cases hz2
    refine ⟨htn, now, hn, ?_⟩
    rw [hsb]
    show Live (dbsOf a.tabs) (addName a.keys k).length (sics bs) rs z' _
    rw [hlen]
    exact (hl.add ha).imp fun k' s' x ⟨kn, t, g1, g2, g3⟩ => ⟨kn, t, prefix_get hp g1, g2, g3⟩

end Sis.Sic
