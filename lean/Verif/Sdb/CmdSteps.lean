import Verif.Sdb.Growth
/- Values, lists and records written, and files closed and opened, in terms of what is seen. -/
namespace Sis.Sdb
open Sis Sis.Disk
open Sis.Dyn (sameN getN setN Db sameN_iff sameN_refl getN_none getN_some setN_spec getN_congr)

theorem one_step {lib : Lib} {P : Db → Prop} (L : ZipOk lib) (T : TextOk lib P) (K : TabsOk P) {d : Disk} {w : Writer} {S : Store} (h : Good lib P d w S) {k : Bytes}
    (hk : GoodKey k) (b : Bytes) :
    ∃ w', writerOne lib d w k b = some w' ∧ Grow w w' ∧
      (Small w' → Good lib P d w' (put S .nots k fun _ => [(0, 0, some (hidOne, catSsize b.length ++ b))]) ∧ w'.main.kd = addKey w.main.kd k ∧ w'.main.sd = w.main.sd ∧
        ∃ n ∈ addKey w.main.kd k, sameN k n = true ∧ w'.main.maps = mark w.main.maps n 2 0) :=
  alone_step T K h hk (fun c => writeOne lib c k b) _ 2 (by omega) fun c hc => by
    obtain ⟨⟨k', i⟩, hg⟩ := Option.isSome_iff_exists.1 (getKey_isSome.2 hc)
    refine ⟨_, by simp only [writeOne, hg, Option.map_some]; rfl, writeMsg_body _ _ _ _ _ _ _ _, fun hs hu => ?_⟩
    obtain ⟨c', e1, _, e3⟩ := one_uok L hu hc b
    simp only [writeOne, hg, Option.map_some, Option.some.injEq] at e1
    rw [← e1] at e3
    exact e3 hs

theorem mul_step {lib : Lib} {P : Db → Prop} (L : ZipOk lib) (T : TextOk lib P) (K : TabsOk P) {d : Disk} {w : Writer} {S : Store} (h : Good lib P d w S) {k : Bytes}
    (hk : GoodKey k) (l : List Bytes) :
    ∃ w', writerMul lib d w k l = some w' ∧ Grow w w' ∧
      (Small w' → Good lib P d w' (put S .nots k fun _ => [(0, 0, some (hidMul, catSsize l.length ++ l.flatMap fun d => catSsize d.length ++ d))]) ∧
        w'.main.kd = addKey w.main.kd k ∧ w'.main.sd = w.main.sd ∧ ∃ n ∈ addKey w.main.kd k, sameN k n = true ∧ w'.main.maps = mark w.main.maps n 3 0) :=
  alone_step T K h hk (fun c => writeMul lib c k l) _ 3 (by omega) fun c hc => by
    obtain ⟨⟨k', i⟩, hg⟩ := Option.isSome_iff_exists.1 (getKey_isSome.2 hc)
    refine ⟨_, by simp only [writeMul, hg, Option.map_some]; rfl, writeMsg_body _ _ _ _ _ _ _ _, fun hs hu => ?_⟩
    obtain ⟨c', e1, _, e3⟩ := mul_uok L hu hc l
    simp only [writeMul, hg, Option.map_some, Option.some.injEq] at e1
    rw [← e1] at e3
    exact e3 hs

/-! ### Records -/

theorem scale_same {a b : Db} (ht : a.time.map (Dyn.unit a) = b.time.map (Dyn.unit b)) : scale a = scale b := by
  unfold scale
  cases ha : a.time <;> cases hb : b.time <;> simp [ha, hb] at ht ⊢
  rw [ht]

theorem getTime_same {a b : Db} (hs : a.size = b.size) (ht : a.time.map (Dyn.unit a) = b.time.map (Dyn.unit b)) (i : Nat) (d : Bytes) :
    Dyn.getTime a i d = Dyn.getTime b i d := by
  unfold Dyn.getTime
  cases ha : a.time <;> cases hb : b.time <;> simp [ha, hb] at ht ⊢
  rw [ht, hs]

theorem blockTimes_same {a b : Db} (hs : a.size = b.size) (ht : a.time.map (Dyn.unit a) = b.time.map (Dyn.unit b)) (d : Bytes) : blockTimes a d = blockTimes b d := by
  unfold blockTimes
  rw [hs, getTime_same hs ht, getTime_same hs ht]

theorem dateOf_same {a b : Db} (ht : a.time.map (Dyn.unit a) = b.time.map (Dyn.unit b)) (v : Time.Env) (t : Nat) : dateOf v a t = dateOf v b t := by
  unfold dateOf
  cases ha : a.time <;> cases hb : b.time <;> simp [ha, hb] at ht ⊢
  rw [ht]

theorem split_same {a b : Db} (hs : a.size = b.size) (ht : a.time.map (Dyn.unit a) = b.time.map (Dyn.unit b)) (v : Time.Env) (year : Bool) (d : Bytes) :
    split v year a d = split v year b d := by
  have hloop : ∀ (n i : Nat) (now : Int) (f m : Nat), splitLoop v year a d n i now f m = splitLoop v year b d n i now f m := by
    intro n
    induction n with
    | zero => intro i now f m; unfold splitLoop; rw [hs]
    | succ n ih =>
      intro i now f m
      unfold splitLoop
      simp only [getTime_same hs ht, dateOf_same ht, hs, ih]
  unfold split
  simp only [getTime_same hs ht, dateOf_same ht, hs, hloop]

/-- One block of records put. -/
def putRows (S : Store) (u : Uid) (n : Bytes) (a b : Nat) (d : Bytes) : Store := put S u n fun l => keepV a b l ++ [(a, b, some (hidSdb, d))]

def uidOf (year : Bool) (p : Int) : Uid := if year then .year (u32 p) else .date (u32 p)

theorem uidOf_kind (year : Bool) (p : Int) : (uidOf year p).kind = if year then .year else .date := by cases year <;> rfl

/-- The pieces put one by one. -/
def putPieces (db : Db) (year : Bool) (n : Bytes) : Store → List (Int × Bytes) → Store
  | S, [] => S
  | S, (p, d) :: ps => putPieces db year n (match blockTimes db d with
    | some (a, b) => putRows S (uidOf year p) n a b d
    | none => S) ps

/-- The marks of the pieces. -/
def markPieces (n : Bytes) (maps : List (Bytes × MapE)) (ps : List (Int × Bytes)) : List (Bytes × MapE) := ps.foldl (fun m p => mark m n 0 (u32 p.1)) maps

theorem u32_lt (p : Int) : u32 p < 2 ^ 32 := by
  unfold u32
  have := Int.emod_lt_of_pos p (b := 2 ^ 32) (by decide)
  have := Int.emod_nonneg p (b := 2 ^ 32) (by decide)
  omega

theorem pieces_step {lib : Lib} {P : Db → Prop} (L : ZipOk lib) (T : TextOk lib P) (K : TabsOk P) {d : Disk} {year : Bool} {k sn : Bytes} {i si : Nat} {dbs : List Db} {db : Db}
    (hl : dbs.getLast? = some db) (hp : P db) (hsc : scale db = some (if year then .year else .date)) {n0 : Bytes} (hn0 : ∀ n, sameN n (nodeName k (some sn)) = sameN n n0)
    (ps : List (Int × Bytes)) :
    (∀ p ∈ ps, Sane (uidOf year p.1) ∧ p.2.length % db.size = 0 ∧ ∃ ab, blockTimes db p.2 = some ab) → ∀ {w w' : Writer} {S : Store}, Good lib P d w S → KeyDiff w →
      w.main.kd[i]? = some k → w.main.sd[si]? = some (sn, dbs) → writePieces lib d year (k, i) (sn, si) w ps = some w' → Small w' →
      Good lib P d w' (putPieces db year n0 S ps) ∧ w'.main.kd = w.main.kd ∧ w'.main.sd = w.main.sd ∧
        w'.main.maps = markPieces (shortName k (some sn)) w.main.maps ps := by
  induction ps with
  | nil => intro _ w w' S h _ _ _ hr _; cases hr; exact ⟨h, rfl, rfl, rfl⟩
  | cons p ps ih =>
    intro hps w w' S h hkd hk hs hr hsm
    obtain ⟨p, b⟩ := p
    obtain ⟨hsane, hdiv, ⟨t1, t2⟩, hbt⟩ := hps (p, b) (by simp)
    unfold writePieces at hr
    obtain ⟨c, h1, hr⟩ := Option.bind_eq_some_iff.1 hr
    obtain ⟨c', h2, hr⟩ := Option.bind_eq_some_iff.1 hr
    obtain ⟨g1, _⟩ := change_grow hkd h1 (writeTab_grow h2) (k, i) (some (sn, si)) 0 (u32 p)
    obtain ⟨_, g2⟩ := pieces_grow ps g1 hr
    have s1 := g2.small hsm
    have h1' : getUnit lib d w (uidOf year p) = some c := h1
    obtain ⟨c0, e1, e2, e3, e4, e5⟩ := getUnit_good T K h.main h.files hsane
    rw [h1'] at e1
    cases e1
    have hkm : k ∈ w.main.kd := List.mem_of_getElem? hk
    obtain ⟨dbs', l, f1, f2, f3, f4⟩ := e4 (sn, dbs) (List.mem_of_getElem? hs) db hl (by rw [uidOf_kind]; exact hsc)
    have hsame : l.size = db.size ∧ l.time.map (Dyn.unit l) = db.time.map (Dyn.unit db) := by
      rcases f4 with rfl | f4
      · exact ⟨rfl, rfl⟩
      · exact K.same l db f3 hp f4
    have hbt' : blockTimes l b = some (t1, t2) := by rw [blockTimes_same hsame.1 hsame.2]; exact hbt
    have ht : t1 < 2 ^ 64 ∧ t2 < 2 ^ 64 := by
      unfold blockTimes at hbt'
      split at hbt'
      · cases hbt'
      · obtain ⟨a, ha, hbt'⟩ := Option.bind_eq_some_iff.1 hbt'
        obtain ⟨a', ha', hbt'⟩ := Option.map_eq_some_iff.1 hbt'
        cases hbt'
        exact ⟨getTime_lt ha, getTime_lt ha'⟩
    have hne : ∀ q, uidOf year q ≠ .nots := by intro q; unfold uidOf; split <;> simp
    obtain ⟨w1, p1, p2, p3⟩ := put_step h hsane e2 (writeTab_grow h2) n0 (fun l => keepV t1 t2 l ++ [(t1, t2, some (hidSdb, b))]) (by
      intro hb
      have hcb : c.body.length < 2 ^ 32 := by
        obtain ⟨x, hx⟩ := writeTab_grow h2
        rw [hx, List.length_append] at hb
        omega
      obtain ⟨u1, u2⟩ := e5 hcb
      obtain ⟨c1, v1, _, v3⟩ := tab_uok L u1 (e3 k hkm) f1 f2 (K.size l f3) (.inl rfl) 0 (by omega)
        (fun db w => (blockTimes db b).map fun (a, b) => { w with start := a, stop := b }) (by rw [hbt']; rfl) ht.1 ht.2 (fun hx => absurd hx (hne p)) b
        (by rw [hsame.1]; exact hdiv)
      have hcc : c1 = c' := Option.some.inj (v1.symm.trans h2)
      rw [hcc] at v3
      obtain ⟨v4, v5⟩ := v3 hb
      refine ⟨v4, fun n hn => ?_⟩
      rw [v5, u2 n hn, hn0]) hk (some (sn, si)) (by intro e he; cases he; exact ⟨dbs, hs⟩) 0 (by omega) (u32 p) (u32_lt p)
    have p1' : ({ putUnit w (if year = true then Uid.year (u32 p) else Uid.date (u32 p)) c' with main := writeMap lib (putUnit w (if year = true then Uid.year (u32 p) else Uid.date (u32 p)) c').main (k, i) (some (sn, si)) 0 (u32 p) false } : Writer) = w1 := p1
    rw [p1'] at s1 g1
    replace hr : writePieces lib d year (k, i) (sn, si) w1 ps = some w' := by rw [← p1']; exact hr
    obtain ⟨q1, q2, q3, q4⟩ := p3 s1
    obtain ⟨r1, r2, r3, r4⟩ := ih (fun x hx => hps x (by simp [hx])) q1 g1 (by rw [q2]; exact hk) (by rw [q3]; exact hs) hr hsm
    refine ⟨?_, r2.trans q2, r3.trans q3, ?_⟩
    · unfold putPieces
      rw [hbt]
      exact r1
    · rw [r4, q4]
      rfl

/-- Records of a table without time. -/
theorem non_step {lib : Lib} {P : Db → Prop} (L : ZipOk lib) (T : TextOk lib P) (K : TabsOk P) {d : Disk} {k sn : Bytes} {i si : Nat} {dbs : List Db} {db : Db}
    (hl : dbs.getLast? = some db) (hp : P db) (hsc : scale db = some .nots) {n0 : Bytes} (hn0 : ∀ n, sameN n (nodeName k (some sn)) = sameN n n0) {w : Writer} {S : Store}
    (h : Good lib P d w S) (hk : w.main.kd[i]? = some k) (hs : w.main.sd[si]? = some (sn, dbs)) (b : Bytes) (hb : b.length % db.size = 0) :
    ∃ w', ((getUnit lib d w .nots).bind fun c => (writeNon lib c k sn b).map fun c =>
        let w := putUnit w .nots c
        { w with main := writeMap lib w.main (k, i) (some (sn, si)) 1 0 false }) = some w' ∧ Grow w w' ∧
      (Small w' → Good lib P d w' (put S .nots n0 fun _ => [(0, 0, some (hidNon, b))]) ∧ w'.main.kd = w.main.kd ∧ w'.main.sd = w.main.sd ∧
        w'.main.maps = mark w.main.maps (shortName k (some sn)) 1 0) := by
  obtain ⟨c, e1, e2, e3, e4, e5⟩ := getUnit_good T K h.main h.files (u := .nots) trivial
  rw [e1]
  simp only [Option.bind_some]
  have hkm : k ∈ w.main.kd := List.mem_of_getElem? hk
  obtain ⟨dbs', l, f1, f2, f3, f4⟩ := e4 (sn, dbs) (List.mem_of_getElem? hs) db hl hsc
  have hsame : l.size = db.size := by
    rcases f4 with rfl | f4
    · rfl
    · exact (K.same l db f3 hp f4).1
  have hdiv : b.length % l.size = 0 := by rw [hsame]; exact hb
  obtain ⟨⟨k', j⟩, hg⟩ := Option.isSome_iff_exists.1 (getKey_isSome.2 (e3 k hkm))
  obtain ⟨sn', j', ht, _, _⟩ := getTab_of f1
  obtain ⟨c', hc'⟩ : ∃ c', writeNon lib c k sn b = some c' := by
    unfold writeNon writeTab
    rw [ht]
    simp only [Option.bind_some, f2]
    rw [if_neg (K.size l f3), if_neg (by simp [hdiv]), hg]
    exact ⟨_, rfl⟩
  rw [hc']
  simp only [Option.map_some]
  obtain ⟨w1, p1, p2, p3⟩ := put_step h (u := .nots) trivial e2 (writeTab_grow hc') n0 (fun _ => [(0, 0, some (hidNon, b))]) (by
    intro hbs
    have hcb : c.body.length < 2 ^ 32 := by
      obtain ⟨x, hx⟩ := writeTab_grow hc'
      rw [hx, List.length_append] at hbs
      omega
    obtain ⟨u1, u2⟩ := e5 hcb
    obtain ⟨z1, z2⟩ := u1.win rfl
    obtain ⟨c1, v1, _, v3⟩ := tab_uok L u1 (e3 k hkm) f1 f2 (K.size l f3) (.inr rfl) 1 (by omega)
      (fun _ w => some w) rfl (by omega) (by omega) (fun _ => ⟨z1, z2⟩) b hdiv
    have hcc : c1 = c' := Option.some.inj (v1.symm.trans hc')
    rw [hcc] at v3
    obtain ⟨v4, v5⟩ := v3 hbs
    refine ⟨v4, fun n hn => ?_⟩
    rw [v5, u2 n hn, hn0, z1, z2, keepV_zero]
    rfl) hk (some (sn, si)) (by intro e he; cases he; exact ⟨dbs, hs⟩) 1 (by omega) 0 (by omega)
  exact ⟨w1, by rw [p1], p2, p3⟩

/-! ### Closed and opened -/

/-- What a disk without an open writer has. -/
structure DiskOk (lib : Lib) (P : Db → Prop) (d : Disk) (m : Ctl) (S : Store) : Prop where
  main : MainInv lib P m
  body : (d.main = none ∧ m = { kind := .main }) ∨ (d.main = some m.body ∧ Readable m.body)
  files : FilesOk lib P d [] S

theorem disk_new (lib : Lib) (P : Db → Prop) : DiskOk lib P {} { kind := .main } fun _ _ => none :=
  ⟨main_new lib P, .inl ⟨rfl, rfl⟩, ⟨by simp, by simp, (by intro u f h; cases h), fun _ _ _ _ _ => rfl⟩⟩

theorem open_good {lib : Lib} {P : Db → Prop} {d : Disk} {m : Ctl} {S : Store} (h : DiskOk lib P d m S) : openWriter lib d = some { main := m } ∧ Good lib P d { main := m } S ∧ KeyDiff { main := m } := by
  refine ⟨?_, ⟨h.main, h.files⟩, by simp [KeyDiff]⟩
  unfold openWriter
  rcases h.body with ⟨h1, h2⟩ | ⟨h1, h2⟩
  · rw [h1, h2]
  · rw [h1]
    simp only
    rw [main_back h.main h2]
    rfl

theorem find_filter (fs : List (Uid × (Bytes × Bytes))) (u : Uid) (f : Bytes × Bytes) (u' : Uid) :
    (((fs.filter fun e => !(e.1 == u)) ++ [(u, f)]).find? fun e => e.1 == u') = if u' = u then some (u, f) else fs.find? fun e => e.1 == u' := by
  rw [List.find?_append]
  by_cases h : u' = u
  · rw [if_pos h]
    have : (fs.filter fun e => !(e.1 == u)).find? (fun e => e.1 == u') = none := by
      rw [List.find?_eq_none]
      intro x hx
      rw [List.mem_filter] at hx
      rw [h]
      simpa using hx.2
    rw [this]
    simp [h]
  · rw [if_neg h]
    have h1 : (fs.filter fun e => !(e.1 == u)).find? (fun e => e.1 == u') = fs.find? fun e => e.1 == u' := by
      rw [List.find?_filter]
      congr 1
      funext e
      by_cases he : e.1 = u'
      · simp [he, h]
      · simp [he]
    rw [h1]
    have : (u == u') = false := by simpa using fun hx => h hx.symm
    simp [this]

/-- The files after closing. -/
theorem closeUnits_find {lib : Lib} (us : List (Uid × Ctl)) : ∀ {fs fs' : List (Uid × (Bytes × Bytes))}, us.Pairwise (fun a b => a.1 ≠ b.1) → closeUnits lib fs us = some fs' →
    (∀ e ∈ us, ∃ f, closeUnit lib e.2 = some f ∧ (fs'.find? fun x => x.1 == e.1) = some (e.1, f)) ∧
      ∀ u, (∀ e ∈ us, e.1 ≠ u) → (fs'.find? fun x => x.1 == u) = fs.find? fun x => x.1 == u := by
  induction us with
  | nil => intro fs fs' _ h; cases h; exact ⟨by simp, fun _ _ => rfl⟩
  | cons e us ih =>
    intro fs fs' hd h
    obtain ⟨u, c⟩ := e
    unfold closeUnits at h
    obtain ⟨f, h1, h⟩ := Option.bind_eq_some_iff.1 h
    obtain ⟨hd1, hd2⟩ := List.pairwise_cons.1 hd
    obtain ⟨g1, g2⟩ := ih hd2 h
    refine ⟨?_, ?_⟩
    · intro e he
      rcases List.mem_cons.1 he with rfl | he
      · refine ⟨f, h1, ?_⟩
        rw [g2 u (fun x hx => (hd1 x hx).symm), find_filter, if_pos rfl]
      · exact g1 e he
    · intro u' hu'
      rw [g2 u' (fun x hx => hu' x (by simp [hx])), find_filter, if_neg (fun hx => hu' (u, c) (by simp) hx.symm)]

/-- The files are not too large. -/
structure DiskSmall (d : Disk) : Prop where
  main : ∀ b, d.main = some b → Readable b
  units : ∀ u f, d.unit u = some f → f.1.length < 2 ^ 32 ∧ Readable f.2

theorem close_body {lib : Lib} {c : Ctl} {f : Bytes × Bytes} (h : closeUnit lib c = some f) : f.1 = c.body := by
  unfold closeUnit at h
  obtain ⟨bs, _, h⟩ := Option.bind_eq_some_iff.1 h
  split at h
  · cases h
  · cases h; rfl

theorem keyDiff_uid {w : Writer} (h : KeyDiff w) : w.units.Pairwise fun a b => a.1 ≠ b.1 :=
  h.imp fun hx he => hx (by rw [he])

theorem disk_unit_find (fs : List (Uid × (Bytes × Bytes))) (m : Option Bytes) (u : Uid) : (Disk.mk m fs).unit u = (fs.find? fun x => x.1 == u).map (·.2) := rfl

/-- A disk that is not too large was closed by a writer that had files that were not. -/
theorem close_small {lib : Lib} {d d' : Disk} {w : Writer} (hw : KeyDiff w) (h : closeWriter lib d w = some d') (hs : DiskSmall d') : Small w := by
  unfold closeWriter at h
  obtain ⟨fs, h1, h⟩ := Option.map_eq_some_iff.1 h
  obtain ⟨c1, _⟩ := closeUnits_find w.units (keyDiff_uid hw) h1
  refine ⟨?_, ?_⟩
  · have := hs.main _ (by rw [← h])
    obtain ⟨x, hx⟩ := writeKeys_grow lib w.main
    obtain ⟨y, hy⟩ := writeTabs_grow lib (writeKeys lib w.main)
    rw [hy, hx] at this
    exact this.prefix.prefix
  · intro e he
    obtain ⟨f, f1, f2⟩ := c1 e he
    have := (hs.units e.1 f (by rw [← h, disk_unit_find, f2]; rfl)).1
    rw [close_body f1] at this
    exact this

theorem close_good {lib : Lib} (ht : lib.trace = false) {P : Db → Prop} {d d' : Disk} {w : Writer} {S : Store}
    (h : Good lib P d w S) (hc : closeWriter lib d w = some d') (hs : DiskSmall d') : DiskOk lib P d' w.main S := by
  unfold closeWriter at hc
  obtain ⟨fs, h1, hc⟩ := Option.map_eq_some_iff.1 hc
  have hm : writeTabs lib (writeKeys lib w.main) = w.main := by
    have : writeKeys lib w.main = w.main := by unfold writeKeys; rw [if_pos h.main.newk]
    rw [this]
    unfold writeTabs
    rw [if_pos h.main.news]
  rw [hm] at hc
  obtain ⟨c1, c2⟩ := closeUnits_find w.units h.files.diff h1
  have hbody := hs.main w.main.body (by rw [← hc])
  have hclosed : ∀ e ∈ w.units, ∃ f c', closeUnit lib e.2 = some f ∧ (fs.find? fun x => x.1 == e.1) = some (e.1, f) ∧ openUnit lib e.1.kind f = some c' ∧
      UOk lib P e.1 c' ∧ ∀ n, IsData n → view lib c' n = S e.1 n := by
    intro e he
    obtain ⟨f, f1, f2⟩ := c1 e he
    obtain ⟨u1, u2, u3⟩ := h.files.units e he
    have hsz := hs.units e.1 f (by rw [← hc, disk_unit_find, f2]; rfl)
    obtain ⟨c', b1, b2, b3, b4, b5, b6, b7, b8, b9, b10⟩ := unit_back ht u1.inv u1.newk u1.news f1 hsz.2
    rw [u1.kind] at b1
    refine ⟨f, c', f1, f2, b1, ⟨⟨b2, ?_, ?_, ?_, ?_, ?_⟩, b3, b4⟩, ?_⟩
    · exact b5.kind.trans u1.kind
    · rw [b7]; exact u1.pdbs
    · intro hn
      rw [b5.win]
      exact ⟨rfl, rfl⟩
    · rw [b6, b8, b3]
      have := u1.kc
      rw [u1.newk] at this
      exact this
    · rw [b7, b8, b4]
      have := u1.sc
      rw [u1.news] at this
      exact this
    · intro n hn
      exact (b5.view n hn).trans (u3 n hn)
  refine ⟨h.main, .inr ⟨by rw [← hc], hbody⟩, ⟨by simp, by simp, ?_, ?_⟩⟩
  · intro u f hu
    rw [← hc, disk_unit_find] at hu
    by_cases hop : ∃ e ∈ w.units, e.1 = u
    · obtain ⟨e, he, rfl⟩ := hop
      obtain ⟨f', c', f1, f2, f3, f4, f5⟩ := hclosed e he
      rw [f2] at hu
      cases hu
      exact ⟨(h.files.units e he).2.1, c', f3, f4, fun _ => f5⟩
    · have hno : ∀ e ∈ w.units, e.1 ≠ u := fun e he hx => hop ⟨e, he, hx⟩
      rw [c2 u hno] at hu
      obtain ⟨g1, c', g2, g3, g4⟩ := h.files.disk u f hu
      exact ⟨g1, c', g2, g3, fun _ => g4 hno⟩
  · intro u hu _ n hn
    rw [← hc, disk_unit_find] at hu
    by_cases hop : ∃ e ∈ w.units, e.1 = u
    · obtain ⟨e, he, rfl⟩ := hop
      obtain ⟨f', f1, f2⟩ := c1 e he
      rw [f2] at hu
      cases hu
    · have hno : ∀ e ∈ w.units, e.1 ≠ u := fun e he hx => hop ⟨e, he, hx⟩
      rw [c2 u hno] at hu
      exact h.files.none u hu hno n hn

end Sis.Sdb
