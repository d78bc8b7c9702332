import Verif.Snodb.WsnoZip
import Verif.Zip.OneLemmas
/-
Lemmas: what comes to the stream of a day, its packets, and what the worker makes of them.
-/
namespace Sis.Wsno
open Sis
open Sis.Sdb (Tab)
open Sis.Zip (Z Ready Run Ev Op Last Flow Fits sent recsOf feed SameRecs SameRec Opens Follows Linked Sound pieces bitsOf getSize does)

/-- Some records of a key and a table. -/
theorem got_loop {ts : List Tab} {nk : Nat} {z0 z1 : Z} (hfit : ∀ t ∈ ts, Fit t.db) (hr : Ready (ts.map (·.db)) nk z0) (h1 : Zip.start z0 (partSize : Nat) = some (0, z1))
    {k s : Int} (hk : 0 ≤ k) (hs : 0 ≤ s) {t : Tab} (htab : ts[s.toNat]? = some t) : ∀ {ds : List Bytes} {z : Z} {rs : List Zip.Rec} {bs : List Bytes} {evs : List Ev},
    Got ts nk z1 rs bs z evs → (∀ r ∈ ds, r.length = t.db.size) → Tame ts (rs ++ if k < (nk : Nat) then ds.map fun r => (k.toNat, s.toNat, r) else []) →
    ∃ bs' z' evs', zipLoop z k s ds = some (bs', z') ∧ Got ts nk z1 (rs ++ if k < (nk : Nat) then ds.map fun r => (k.toNat, s.toNat, r) else []) (bs ++ bs') z' evs' := by
  intro ds
  induction ds with
  | nil =>
    intro z rs bs evs h _ _
    exact ⟨[], z, evs, rfl, by simpa using h⟩
  | cons r ds ih =>
    intro z rs bs evs h hl hT
    have hsplit : (rs ++ if k < (nk : Nat) then (r :: ds).map fun r => (k.toNat, s.toNat, r) else []) =
        (rs ++ if k < (nk : Nat) then [(k.toNat, s.toNat, r)] else []) ++ if k < (nk : Nat) then ds.map fun r => (k.toNat, s.toNat, r) else [] := by
      split <;> simp
    rw [hsplit] at hT ⊢
    obtain ⟨n, b1, z', e1, g1, g2⟩ := got_record hfit hr h1 h hk hs htab (hl r (by simp)) (fun hkk => by
      have := hT.pre
      rwa [if_pos hkk] at this)
    obtain ⟨b2, z2, e2, g3, g4⟩ := ih g2 (fun r hr => hl r (by simp [hr])) hT
    refine ⟨b1 ++ b2, z2, e2, ?_, by rw [← List.append_assoc]; exact g4⟩
    unfold zipLoop
    rw [g1, Option.bind_some]
    simp only [g3]
    rfl

/-- The stream with a compressor that has got the records `rs` and handed on the packets `bs`. -/
structure On (ks : List Bytes) (ts : List Tab) (z1 : Z) (rs : List Zip.Rec) (bs : List Bytes) (i : Incr) : Prop where
  sdbs : i.sdbs = ts.map fun t => (t.name, t)
  summ : i.summ ≤ pageSize
  got : ∃ evs, Got ts ks.length z1 rs bs i.z evs

theorem recs_cons (nk : Nat) (ts : List Tab) (x : In) (xs : List In) : recs nk ts (x :: xs) = recs nk ts [x] ++ recs nk ts xs := by
  simp [recs]

theorem recs_append (nk : Nat) (ts : List Tab) (xs ys : List In) : recs nk ts (xs ++ ys) = recs nk ts xs ++ recs nk ts ys := by
  simp [recs]

theorem on_in {ks : List Bytes} {ts : List Tab} {z0 z1 : Z} {rs : List Zip.Rec} {bs : List Bytes} {i : Incr} (hfit : ∀ t ∈ ts, Fit t.db) (hr : Ready (ts.map (·.db)) ks.length z0)
    (h1 : Zip.start z0 (partSize : Nat) = some (0, z1)) (h : On ks ts z1 rs bs i) {x : In} (hx : Proper x) (hT : Tame ts (rs ++ recs ks.length ts [x])) :
    ∃ bs' i', zipIn i x = some (bs', i') ∧ On ks ts z1 (rs ++ recs ks.length ts [x]) (bs ++ bs') i' ∧ (x = .idle → getSize i'.z = 0) := by
  obtain ⟨evs, hg⟩ := h.got
  cases x with
  | idle =>
    obtain ⟨bs', z', evs', g1, g2, g3⟩ := got_restart hfit hr h1 hg hT.pre false
    refine ⟨bs', { i with z := z' }, ?_, ⟨h.sdbs, h.summ, evs', ?_⟩, fun _ => g3⟩
    · show (Zip.restart i.z false).map _ = _
      rw [g1]
      rfl
    · simpa [recs] using g2
  | record k s d =>
    obtain ⟨hk, hs, hd⟩ := hx
    show ∃ bs' i', zipSet i k s d = _ ∧ _
    unfold zipSet
    rw [if_neg (by omega), h.sdbs, List.getElem?_map]
    cases htab : ts[s.toNat]? with
    | none =>
      refine ⟨[], i, rfl, ?_, (by intro hh; cases hh)⟩
      have : recs ks.length ts [.record k s d] = [] := by simp [recs, htab]
      rw [this, List.append_nil, List.append_nil]
      exact h
    | some t =>
      have hf := hfit t (List.mem_of_getElem? htab)
      have hrec : recs ks.length ts [.record k s d] = if k < (ks.length : Nat) then (pieces t.db.size d).map fun r => (k.toNat, s.toNat, r) else [] := by
        simp [recs, htab]
      rw [hrec] at hT ⊢
      simp only [Option.map_some]
      have hp := h.summ
      have hps : pageSize = 16777215 := rfl
      rw [if_neg (by have := hf.pos; omega)]
      have hl : ∀ r ∈ pieces t.db.size d, r.length = t.db.size := by
        intro r hr
        unfold pieces at hr
        obtain ⟨j, hj, rfl⟩ := List.mem_map.1 hr
        have hj := List.mem_range.1 hj
        have h2 : (j + 1) * t.db.size ≤ d.length := Nat.le_trans (Nat.mul_le_mul_right _ hj) (Nat.div_mul_le_self _ _)
        rw [Nat.add_mul] at h2
        rw [List.length_take, List.length_drop]
        omega
      have fin : ∀ (b1 : List Bytes) (z' : Z) (sm : Nat) (evs' : List Ev), Got ts ks.length z1 rs (bs ++ b1) z' evs' → sm ≤ pageSize →
          ∃ bs' i', ((zipLoop z' k s (Sno.slices t.db.size d)).map fun (b2, z) => (b1 ++ b2, ({ i with z := z, summ := sm } : Incr))) = some (bs', i') ∧
            On ks ts z1 (rs ++ if k < (ks.length : Nat) then (pieces t.db.size d).map fun r => (k.toNat, s.toNat, r) else []) (bs ++ bs') i' := by
        intro b1 z' sm evs' hg hsm
        obtain ⟨b2, z2, e2, g3, g4⟩ := got_loop hfit hr h1 hk hs htab (ds := pieces t.db.size d) hg hl hT
        have hsl : Sno.slices t.db.size d = pieces t.db.size d := rfl
        rw [hsl, g3]
        exact ⟨b1 ++ b2, { i with z := z2, summ := sm }, rfl, ⟨h.sdbs, hsm, e2, by rw [← List.append_assoc]; exact g4⟩⟩
      by_cases hpg : i.summ + d.length > pageSize
      · rw [if_pos hpg]
        obtain ⟨b1, z', evs', g1, g2, -⟩ := got_restart hfit hr h1 hg hT.pre true
        rw [g1]
        obtain ⟨bs', i', q1, q2⟩ := fin b1 z' 0 evs' g2 (Nat.zero_le _)
        exact ⟨bs', i', by rw [h.sdbs] at q1; exact q1, q2, (by intro hh; cases hh)⟩
      · rw [if_neg hpg]
        obtain ⟨bs', i', q1, q2⟩ := fin [] i.z (i.summ + d.length) evs (by rw [List.append_nil]; exact hg) (by omega)
        exact ⟨bs', i', by rw [h.sdbs] at q1; exact q1, q2, (by intro hh; cases hh)⟩

theorem on_run {ks : List Bytes} {ts : List Tab} {z0 z1 : Z} (hfit : ∀ t ∈ ts, Fit t.db) (hr : Ready (ts.map (·.db)) ks.length z0)
    (h1 : Zip.start z0 (partSize : Nat) = some (0, z1)) : ∀ {ins : List In} {rs : List Zip.Rec} {bs : List Bytes} {i : Incr}, On ks ts z1 rs bs i → (∀ x ∈ ins, Proper x) →
    Tame ts (rs ++ recs ks.length ts ins) → ∃ bs' i', zipRun i ins = some (bs', i') ∧ On ks ts z1 (rs ++ recs ks.length ts ins) (bs ++ bs') i' := by
  intro ins
  induction ins with
  | nil =>
    intro rs bs i h _ _
    exact ⟨[], i, rfl, by simpa [recs] using h⟩
  | cons x xs ih =>
    intro rs bs i h hp hT
    rw [recs_cons, ← List.append_assoc] at hT ⊢
    obtain ⟨b1, i1, g1, g2, -⟩ := on_in hfit hr h1 h (hp x (by simp)) hT.pre
    obtain ⟨b2, i2, g3, g4⟩ := ih g2 (fun x hx => hp x (by simp [hx])) hT
    refine ⟨b1 ++ b2, i2, ?_, by rw [← List.append_assoc]; exact g4⟩
    unfold zipRun
    rw [g1, Option.bind_some]
    simp only [g3]
    rfl

theorem zipRun_append : ∀ {xs ys : List In} {i : Incr}, zipRun i (xs ++ ys) = (zipRun i xs).bind fun (b1, i) => (zipRun i ys).map fun (b2, i) => (b1 ++ b2, i) := by
  intro xs
  induction xs with
  | nil => intro ys i; cases h : zipRun i ys <;> simp [zipRun, h]
  | cons x xs ih =>
    intro ys i
    simp only [List.cons_append, zipRun]
    cases zipIn i x with
    | none => rfl
    | some r =>
      simp only [Option.bind_some]
      rw [ih]
      cases zipRun r.2 xs with
      | none => rfl
      | some q =>
        simp only [Option.bind_some, Option.map_some]
        cases zipRun q.2 ys with
        | none => rfl
        | some u => simp

/-! ### Reading the packets -/

theorem feed_pre {d d2 : Z} {a b : List Bytes} {rs : List Zip.Rec} (h : feed d (a ++ b) = some (rs, d2)) : ∃ r1 d1 r2, feed d a = some (r1, d1) ∧ feed d1 b = some (r2, d2) ∧ rs = r1 ++ r2 := by
  induction a generalizing d rs with
  | nil => exact ⟨[], d, rs, rfl, h, rfl⟩
  | cons x a ih =>
    simp only [List.cons_append, feed, Option.bind_eq_some_iff, Option.map_eq_some_iff] at h
    obtain ⟨⟨n, r0, d0⟩, g1, ⟨r', d'⟩, g2, g3⟩ := h
    cases g3
    obtain ⟨r1, d1, r2, e1, e2, rfl⟩ := ih g2
    refine ⟨r0 ++ r1, d1, r2, ?_, e2, by simp⟩
    simp [feed, g1, e1]

theorem decElem_len {f : Dyn.Field} {mem : Option (Bytes × Nat)} {ob j : Nat} {out out' : Bytes} {s s' : BitS} (h : Zip.decElem f mem ob j out s = some (out', s')) : out'.length = out.length := by
  unfold Zip.decElem at h
  split at h <;> try simp only [Option.bind_eq_some_iff, Option.map_eq_some_iff] at h
  · obtain ⟨_, _, _, _, x, hx, he⟩ := h
    cases he
    exact Dyn.puts_length hx
  iterate 6
    obtain ⟨_, _, _, _, x, hx, he⟩ := h
    cases he
    exact Dyn.puts_length hx
  · cases h
  · obtain ⟨_, _, ⟨⟨_, _⟩, _⟩, _, x, hx, he⟩ := h
    cases he
    exact Dyn.put_length hx
  · cases h
    rfl

theorem decElems_len {f : Dyn.Field} {mem : Option (Bytes × Nat)} {ob : Nat} : ∀ {n j : Nat} {out out' : Bytes} {s s' : BitS}, Zip.decElems f mem ob n j out s = some (out', s') → out'.length = out.length := by
  intro n
  induction n with
  | zero => intro j out out' s s' h; cases h; rfl
  | succ n ih =>
    intro j out out' s s' h
    simp only [Zip.decElems, Option.bind_eq_some_iff] at h
    obtain ⟨⟨o, s1⟩, h1, h2⟩ := h
    exact (ih h2).trans (decElem_len h1)

theorem decRec_len {t : Zip.Tab} {mem : Option (Bytes × Nat)} {ob : Nat} : ∀ {n i : Nat} {out out' : Bytes} {s s' : BitS}, Zip.decRec t mem ob n i out s = some (out', s') → out'.length = out.length := by
  intro n
  induction n with
  | zero => intro i out out' s s' h; cases h; rfl
  | succ n ih =>
    intro i out out' s s' h
    simp only [Zip.decRec, Option.bind_eq_some_iff] at h
    obtain ⟨f, _, ⟨o, s1⟩, h1, h2⟩ := h
    exact (ih h2).trans (decElems_len h1)

theorem unRecs_len {t : Zip.Tab} {b k si zp : Nat} : ∀ {n : Nat} {mem unz mem' unz' : Bytes} {s s' : BitS} {rs : List Zip.Rec}, Zip.unRecs t b k si zp n mem unz s = some ((rs, mem', unz'), s') →
    mem'.length = mem.length ∧ unz'.length = unz.length := by
  intro n
  induction n with
  | zero => intro mem unz mem' unz' s s' rs h; cases h; exact ⟨rfl, rfl⟩
  | succ n ih =>
    intro mem unz mem' unz' s s' rs h
    simp only [Zip.unRecs, Option.bind_eq_some_iff] at h
    obtain ⟨⟨u, s1⟩, h1, flag, _, h2⟩ := h
    have hu := decRec_len h1
    split at h2
    · obtain ⟨q1, q2⟩ := ih h2
      exact ⟨q1, q2.trans hu⟩
    · simp only [Option.bind_eq_some_iff, Option.map_eq_some_iff] at h2
      obtain ⟨r, _, m1, hm1, m2, hm2, ⟨⟨_, _, _⟩, _⟩, h3, he⟩ := h2
      cases he
      obtain ⟨q1, q2⟩ := ih h3
      exact ⟨q1.trans ((Dyn.put_length hm2).trans (Dyn.put_length hm1)), q2.trans hu⟩

theorem unBag_len {tabs : List Zip.Tab} {keys sum : Nat} {mem unz mem' unz' : Bytes} {s s' : BitS} {rs : List Zip.Rec} (h : Zip.unBag tabs keys sum mem unz s = some ((rs, mem', unz'), s')) :
    mem'.length = mem.length ∧ unz'.length = unz.length := by
  simp only [Zip.unBag, Option.bind_eq_some_iff] at h
  obtain ⟨_, _, _, _, _, _, _, _, h⟩ := h
  split at h
  · cases h; exact ⟨rfl, rfl⟩
  · split at h
    · cases h
    · split at h
      · exact unRecs_len h
      · cases h

theorem unBags_len {tabs : List Zip.Tab} {keys sum : Nat} : ∀ {n : Nat} {mem unz mem' unz' : Bytes} {s s' : BitS} {rs : List Zip.Rec},
    Zip.unBags tabs keys sum n mem unz s = some ((rs, mem', unz'), s') → mem'.length = mem.length ∧ unz'.length = unz.length := by
  intro n
  induction n with
  | zero => intro mem unz mem' unz' s s' rs h; cases h; exact ⟨rfl, rfl⟩
  | succ n ih =>
    intro mem unz mem' unz' s s' rs h
    simp only [Zip.unBags, Option.bind_eq_some_iff, Option.map_eq_some_iff] at h
    obtain ⟨⟨⟨_, m1, u1⟩, s1⟩, h1, ⟨⟨_, m2, u2⟩, s2⟩, h2, he⟩ := h
    cases he
    obtain ⟨q1, q2⟩ := unBag_len h1
    obtain ⟨q3, q4⟩ := ih h2
    exact ⟨q3.trans q1, q4.trans q2⟩

theorem dec_step {dbs : List Dyn.Db} {kd : Nat} {d d' : Z} {b : Bytes} {n : Int} {rs : List Zip.Rec} (h : Zip.Dec dbs kd d) (hs : Zip.unStep d b = some (n, rs, d')) : Zip.Dec dbs kd d' := by
  unfold Zip.unStep at hs
  split at hs
  · cases hs; exact h
  split at hs
  · cases hs
  simp only [Option.bind_eq_some_iff] at hs
  obtain ⟨bags, _, hs⟩ := hs
  split at hs
  · cases hs
    exact ⟨h.tabs.same rfl rfl rfl rfl, h.status, h.mem, h.unz⟩
  simp only [Option.bind_eq_some_iff, Option.map_eq_some_iff] at hs
  obtain ⟨_, _, ⟨⟨_, m1, u1⟩, s1⟩, h1, he⟩ := hs
  cases he
  obtain ⟨q1, q2⟩ := unBags_len h1
  exact ⟨h.tabs.same rfl rfl rfl rfl, h.status, q1.trans h.mem, q2.trans h.unz⟩

theorem dec_feed {dbs : List Dyn.Db} {kd : Nat} : ∀ {bs : List Bytes} {d d' : Z} {rs : List Zip.Rec}, Zip.Dec dbs kd d → feed d bs = some (rs, d') → Zip.Dec dbs kd d' := by
  intro bs
  induction bs with
  | nil => intro d d' rs h hf; cases hf; exact h
  | cons b bs ih =>
    intro d d' rs h hf
    simp only [feed, Option.bind_eq_some_iff, Option.map_eq_some_iff] at hf
    obtain ⟨⟨n, r0, d0⟩, g1, ⟨r', d1⟩, g2, g3⟩ := hf
    cases g3
    exact ih (dec_step h g1) g2

theorem dec_start {dbs : List Dyn.Db} {kd : Nat} {d0 d1 : Z} {fresh : Bytes} (hd : Ready dbs kd d0) (hu : Zip.unStart d0 fresh = some (0, d1)) : Zip.Dec dbs kd d1 := by
  obtain ⟨T', -⟩ := hd.facts
  unfold Zip.unStart at hu
  split at hu
  · cases hu
  split at hu
  · cases hu
  rename_i hn
  simp only [not_or, Nat.not_le, Decidable.not_not] at hn
  cases hu
  refine ⟨T'.same rfl rfl rfl rfl, rfl, ?_, hn.2.2⟩
  show (List.replicate (d0.keys * d0.sum) 0).length = _
  rw [List.length_replicate, T'.keys, T'.total]

/-- The packets of a run with the last one hold its records, whatever was read before. -/
theorem packets_hold {e : Env} {ks : List Bytes} {ts : List Tab} {K T : Bytes} (h : Dict e ks ts K T) {z0 z1 d1 : Z} (hz : Ready (ts.map (·.db)) ks.length z0)
    (h1 : Zip.start z0 (partSize : Nat) = some (0, z1)) (hd : Zip.Dec (ts.map (·.db)) ks.length d1)
    {rs : List Zip.Rec} {bs : List Bytes} {i : Incr} (ho : On ks ts z1 rs bs i) (hT : Tame ts rs) :
    ∃ last z3, Zip.stop i.z = some (last, z3) ∧ (∃ out d2, feed d1 (bs ++ last) = some (out, d2) ∧ SameRecs (ts.map (·.db)) out rs) ∧ (getSize i.z = 0 → last = []) := by
  obtain ⟨evs, hg⟩ := ho.got
  have hpl : ∀ db ∈ ts.map (·.db), Zip.Plain db := fun db hd => by
    obtain ⟨u, hu, rfl⟩ := List.mem_map.1 hd
    exact (h.fits u hu).plain
  obtain ⟨last, z3, g1⟩ := (Zip.C09_ends hpl hz h1 hg.run hg.sizes (hg.flow hT)).2
  have h0 := Zip.sim_start1 (xs := []) hz h1 (by rw [List.append_nil]; exact hd.tabs) hd.status (by rw [List.append_nil]; exact hd.mem) hd.unz
  obtain ⟨out, d', p', dec', new, mem2, unz2, f1, f2, f3, f4, -⟩ := Zip.sim_run hpl hg.run (more := []) h0 (by
    intro e he
    have := hg.sizes e he
    split <;> omega) hg.known (by rw [List.append_nil]; exact hg.flow hT)
  rw [List.nil_append] at f3
  rw [hg.blocks] at f1
  rw [hg.sent, ← f3] at f4
  refine ⟨last, z3, g1, ?_⟩
  unfold Zip.stop at g1
  rw [if_neg (by rw [f2.status]; decide)] at g1
  dsimp only at g1
  by_cases hpos : getSize i.z > 0
  · rw [if_pos hpos] at g1
    simp only [Option.map_map, Option.map_eq_some_iff] at g1
    obtain ⟨blk, hblk, g1⟩ := g1
    cases g1
    obtain ⟨n, d2, q1, -, -⟩ := Zip.flush f2 hpos hblk
    refine ⟨⟨out ++ dec', d2, ?_, f4⟩, fun h0 => by omega⟩
    rw [Zip.feed_append f1, Zip.feed_one q1]
    rfl
  · rw [if_neg hpos] at g1
    cases g1
    have hdec : dec' = [] := (f2.idle (f2.size0 hpos)).1
    rw [hdec, List.append_nil] at f4
    exact ⟨⟨out, d', by rw [List.append_nil]; exact f1, f4⟩, fun _ => rfl⟩

/-- A whole run of the compressor. -/
theorem run_defined {e : Env} {ks : List Bytes} {ts : List Tab} {K T : Bytes} (h : Dict e ks ts K T) {ins : List In} (hp : ∀ x ∈ ins, Proper x) (hT : Tame ts (recs ks.length ts ins)) :
    ∃ i0 bs i last, zipOpen e K T = some i0 ∧ zipRun i0 ins = some (bs, i) ∧ zipStop i = some last ∧ ∀ d, Zip.Dec (ts.map (·.db)) ks.length d →
      (∃ out d', feed d (bs ++ last) = some (out, d') ∧ SameRecs (ts.map (·.db)) out (recs ks.length ts ins)) ∧
      ∀ pre post, ins = pre ++ In.idle :: post → ∃ b1 i1 o1 d1, zipRun i0 (pre ++ [.idle]) = some (b1, i1) ∧ feed d b1 = some (o1, d1) ∧ o1.length = (recs ks.length ts pre).length := by
  obtain ⟨z0, z1, g1, hz, h1, k1, k2, k3, k4⟩ := zip_opened h
  have hon : On ks ts z1 [] [] ⟨ks.map fun k => (k, k), ts.map fun t => (t.name, t), z1, 0⟩ := by
    refine ⟨rfl, Nat.zero_le _, [], ?_⟩
    exact ⟨.nil, rfl, rfl, by simp, by simp, by simp, by show getSize z1 ≤ _; omega, k1, k2, k3, rfl⟩
  obtain ⟨bs, i, g2, g3⟩ := on_run h.fits hz h1 hon hp (by simpa using hT)
  rw [List.nil_append, List.nil_append] at g3
  obtain ⟨d00, d01, fr, -, hr0, hu0⟩ := unzip_opened (e := { e with fresh := fun n => List.replicate n 0 }) (ks := ks) (ts := ts) (K := K) (T := T)
    ⟨h.keys, h.names, h.apart, h.some, h.tabs, h.tapart, h.tsome, h.fits, h.room, h.few⟩ (by simp)
  obtain ⟨last, z3, l1, -, -⟩ := packets_hold h hz h1 (dec_start hr0 hu0) g3 hT
  refine ⟨_, bs, i, last, g1, g2, by unfold zipStop; rw [l1]; rfl, fun d hd => ⟨?_, ?_⟩⟩
  · obtain ⟨last', z3', l2, l3, -⟩ := packets_hold h hz h1 hd g3 hT
    rw [l1] at l2
    cases l2
    exact l3
  rintro pre post rfl
  have hsp : pre ++ In.idle :: post = (pre ++ [.idle]) ++ post := by simp
  have hrp : recs ks.length ts (pre ++ [.idle]) = recs ks.length ts pre := by simp [recs]
  rw [hsp, recs_append, hrp] at hT
  have hTp : Tame ts (recs ks.length ts pre) := hT.pre
  obtain ⟨b1, i1, u1, u2⟩ := on_run h.fits hz h1 hon (ins := pre) (fun x hx => hp x (by simp [hx])) (by simpa using hTp)
  rw [List.nil_append, List.nil_append] at u2
  obtain ⟨b2, i2, v1, v2, v3⟩ := on_in h.fits hz h1 u2 (x := .idle) (hp _ (by simp)) (by
    have : recs ks.length ts [.idle] = [] := by simp [recs]
    rw [this, List.append_nil]
    exact hTp)
  have v4 : recs ks.length ts [.idle] = [] := by simp [recs]
  rw [v4, List.append_nil] at v2
  obtain ⟨lst, z4, w1, ⟨o1, d3, w2, w3⟩, w4⟩ := packets_hold h hz h1 hd v2 hTp
  rw [w4 (v3 rfl), List.append_nil] at w2
  refine ⟨b1 ++ b2, i2, o1, d3, ?_, w2, w3.1⟩
  rw [zipRun_append, u1]
  simp [zipRun, v1]

/-- The first packets of a run, and a reader in any state. -/
theorem run_held {e : Env} {ks : List Bytes} {ts : List Tab} {K T : Bytes} (h : Dict e ks ts K T) {ins : List In} (hp : ∀ x ∈ ins, Proper x) (hT : Tame ts (recs ks.length ts ins))
    {p : List Bytes} (hl : Logged e K T ins p) {d : Z} (hd : Zip.Dec (ts.map (·.db)) ks.length d) :
    ∃ out d', feed d p = some (out, d') ∧ Kept e K T ks.length ts ins p out.length ∧ SameRecs (ts.map (·.db)) out ((recs ks.length ts ins).take out.length) := by
  obtain ⟨i0, bs, i, last, g1, g2, g3, g4⟩ := run_defined h hp hT
  obtain ⟨i0', bs', i', last', q1, q2, q3, rest, hrest⟩ := hl
  rw [g1] at q1
  cases q1
  rw [g2] at q2
  cases q2
  rw [g3] at q3
  cases q3
  obtain ⟨⟨all, d2, f1, f2⟩, f3⟩ := g4 d hd
  rw [← hrest] at f1
  obtain ⟨out, d1, r2, x1, x2, rfl⟩ := feed_pre f1
  obtain ⟨f4, f5⟩ := f2
  rw [List.length_append] at f4
  refine ⟨out, d1, x1, ⟨by omega, ?_, ?_⟩, by rw [List.length_take]; omega, ?_⟩
  · intro i0' bs' i' last' y1 y2 y3 y4
    rw [g1] at y1
    cases y1
    rw [g2] at y2
    cases y2
    rw [g3] at y3
    cases y3
    have : rest = [] := by
      rw [y4] at hrest
      exact List.append_right_eq_self.1 hrest
    subst this
    cases x2
    simpa using f4
  · intro pre post i0' b1 i1 y1 y2 y3 y4
    rw [g1] at y2
    cases y2
    obtain ⟨b1', i1', o1, d3, u1, u2, u3⟩ := f3 pre post y1
    rw [y3] at u1
    cases u1
    obtain ⟨more, rfl⟩ := y4
    obtain ⟨r1, d5, r3, v1, v2, rfl⟩ := feed_pre x1
    rw [u2] at v1
    cases v1
    rw [List.length_append]
    omega
  · intro j k s r hj
    have hjl : j < out.length := by
      have := (List.getElem?_eq_some_iff.1 hj).1
      rw [List.length_take] at this
      omega
    rw [List.getElem?_take_of_lt hjl] at hj
    obtain ⟨r', e1, e2⟩ := f5 j k s r hj
    rw [List.getElem?_append_left hjl] at e1
    exact ⟨r', e1, e2⟩

/-! ### The worker -/

theorem puts_stored {ks : List Bytes} {ts : List Tab} {u : Incr} (hk : u.keys = ks.map fun k => (k, k)) (ht : u.sdbs = ts.map fun t => (t.name, t)) (hpos : ∀ t ∈ ts, 0 < t.db.size) :
    ∀ {out rs : List Zip.Rec}, SameRecs (ts.map (·.db)) out rs → (∀ r ∈ rs, r.1 < ks.length ∧ r.2.1 < ts.length) → ∃ ps, putsOf u out = some (ps.map fun r => .put r.key r.tab r.data) ∧ Stored ks ts rs ps := by
  intro out
  induction out with
  | nil =>
    intro rs h _
    have : rs = [] := List.length_eq_zero_iff.1 h.1.symm
    subst this
    exact ⟨[], rfl, rfl, by simp⟩
  | cons x out ih =>
    intro rs h hn
    obtain ⟨hl, hs⟩ := h
    cases rs with
    | nil => simp at hl
    | cons y rs =>
      obtain ⟨k, s, r⟩ := y
      obtain ⟨r', e1, e2⟩ := hs 0 k s r rfl
      simp only [List.getElem?_cons_zero, Option.some.injEq] at e1
      subst e1
      obtain ⟨hk1, hs1⟩ := hn (k, s, r) (by simp)
      obtain ⟨cs, g1, g2, g3⟩ := ih ⟨by simpa using hl, fun j k s r hj => hs (j + 1) k s r (by simpa using hj)⟩ fun r hr => hn r (by simp [hr])
      have hkk : ks[k]? = some ks[k] := List.getElem?_eq_getElem hk1
      have hss : ts[s]? = some ts[s] := List.getElem?_eq_getElem hs1
      obtain ⟨q1, q2⟩ := e2 ts[s].db (by rw [List.getElem?_map, hss]; rfl)
      have hne : r' ≠ [] := by
        intro hh
        rw [hh] at q1
        have := hpos ts[s] (List.getElem_mem hs1)
        simp at q1
        omega
      have hput : putOf u (k, s, r') = some [.put ks[k] ts[s].name r'] := by
        unfold putOf
        rw [if_neg hne, hk, ht, List.getElem?_map, List.getElem?_map, hkk, hss]
        rfl
      refine ⟨⟨ks[k], ts[s].name, r'⟩ :: cs, ?_, by simp [g2], ?_⟩
      · unfold putsOf
        rw [hput, Option.bind_some, g1]
        rfl
      · intro j k' s' r0 hj
        cases j with
        | zero =>
          simp only [List.getElem?_cons_zero, Option.some.injEq, Prod.mk.injEq] at hj
          obtain ⟨rfl, rfl, rfl⟩ := hj
          exact ⟨_, _, r', hkk, hss, rfl, q1, q2⟩
        | succ j =>
          rw [List.getElem?_cons_succ] at hj
          obtain ⟨n, t, r1, p1, p2, p3, p4⟩ := g3 j k' s' r0 hj
          exact ⟨n, t, r1, p1, p2, by rw [List.getElem?_cons_succ]; exact p3, p4⟩

theorem putsOf_append {u : Incr} : ∀ {a b : List Zip.Rec}, putsOf u (a ++ b) = (putsOf u a).bind fun x => (putsOf u b).map fun y => x ++ y := by
  intro a
  induction a with
  | nil => intro b; cases h : putsOf u b <;> simp [putsOf, h]
  | cons r a ih =>
    intro b
    simp only [List.cons_append, putsOf]
    rw [ih]
    cases putOf u r with
    | none => rfl
    | some c =>
      simp only [Option.bind_some]
      cases putsOf u a with
      | none => rfl
      | some x =>
        simp only [Option.bind_some, Option.map_some]
        cases putsOf u b with
        | none => rfl
        | some y => simp

/-- The names do not depend on the state of the decompressor. -/
theorem putsOf_z {u : Incr} {z : Z} : ∀ {rs : List Zip.Rec}, putsOf { u with z := z } rs = putsOf u rs := by
  intro rs
  induction rs with
  | nil => rfl
  | cons r rs ih =>
    unfold putsOf
    rw [ih]
    rfl

/-- The packets that come behind the head. -/
theorem packets_read {e : Env} {day : Nat} {u : Incr} {K T : Option Bytes} {files : List (Nat × List Sno.Cmd)} : ∀ {bs : List Bytes} {d d2 : Z} {out : List Zip.Rec} {cs cs' : List Sno.Cmd},
    feed d bs = some (out, d2) → putsOf u out = some cs' →
    run e ⟨.head, K, T, some { u with z := d }, .on day cs, files⟩ (bs.map .incr) = some ⟨.head, K, T, some { u with z := d2 }, .on day (cs ++ cs'), files⟩ := by
  intro bs
  induction bs with
  | nil =>
    intro d d2 out cs cs' h hp
    simp only [feed, Option.some.injEq, Prod.mk.injEq] at h
    obtain ⟨rfl, rfl⟩ := h
    cases hp
    simp [run]
  | cons b bs ih =>
    intro d d2 out cs cs' h hp
    simp only [feed, Option.bind_eq_some_iff, Option.map_eq_some_iff] at h
    obtain ⟨⟨n, r0, d0⟩, g1, ⟨r', d'⟩, g2, g3⟩ := h
    cases g3
    rw [putsOf_append] at hp
    simp only [Option.bind_eq_some_iff, Option.map_eq_some_iff] at hp
    obtain ⟨c0, p1, c1, p2, rfl⟩ := hp
    have hstep : step e ⟨.head, K, T, some { u with z := d }, .on day cs, files⟩ (.incr b) = some ⟨.head, K, T, some { u with z := d0 }, .on day (cs ++ c0), files⟩ := by
      simp only [step, head, unzipSet]
      rw [if_neg (by decide), if_pos (by decide), Option.bind_some]
      simp only [g1, Option.bind_some]
      rw [putsOf_z, p1]
      rfl
    have := ih (cs := cs ++ c0) g2 p2
    unfold run at this ⊢
    rw [List.map_cons, List.foldlM_cons, hstep, List.append_assoc] at *
    exact this

end Sis.Wsno
