import Verif.Zip.SizeLemmas
/-
One bag and the block of one call.
-/
namespace Sis.Zip
open Sis Sis.BitS

theorem setBags_over {s s' : BitS} {max bags w : Nat} (hm : max < s.pos) (h : setBags s max bags = some (s', w)) : s'.pos = max ∧ 1 ≤ w := by
  unfold setBags at h
  dsimp only at h
  have key : ∀ s2 : BitS, (moveTo s2 max s.pos).pos = max := by
    intro s2
    unfold moveTo
    rw [if_pos hm]
  generalize (if (8 - s.pos % 8) % 8 ≠ 0 then moveTo s max (s.pos + (8 - s.pos % 8) % 8) else s) = s1 at h
  split at h
  · simp only [Option.map_eq_some_iff] at h
    obtain ⟨s2, -, h⟩ := h
    cases h
    exact ⟨key s2, by omega⟩
  · split at h
    all_goals
      simp only [Option.map_eq_some_iff] at h
      obtain ⟨s2, -, h⟩ := h
      cases h
      exact ⟨key s2, by omega⟩

theorem setBags_buf {s s' : BitS} {max bags w : Nat} (hs : s.pos ≤ 8 * s.buf.length) (h : setBags s max bags = some (s', w)) : s'.buf.length = s.buf.length := by
  unfold setBags at h
  dsimp only at h
  obtain ⟨s1, e1, e2, e3⟩ : ∃ s1 : BitS, (if (8 - s.pos % 8) % 8 ≠ 0 then moveTo s max (s.pos + (8 - s.pos % 8) % 8) else s) = s1 ∧ s1.buf = s.buf ∧
      s1.pos ≤ 8 * s.buf.length := by
    split
    · refine ⟨_, rfl, rfl, ?_⟩
      unfold moveTo
      dsimp only
      split <;> omega
    · exact ⟨_, rfl, rfl, hs⟩
  rw [e1] at h
  have key : ∀ (cs : List (Nat × Nat)) (s2 : BitS), putAll s1 cs = some s2 → (moveTo s2 max s.pos).buf.length = s.buf.length := by
    intro cs s2 hp
    have := (putAll_effect (by rw [e2]; exact e3) hp).2.1
    rw [e2] at this
    exact this
  split at h
  · simp only [Option.map_eq_some_iff] at h
    obtain ⟨s2, hp, h⟩ := h
    cases h
    exact key _ s2 hp
  · split at h
    all_goals
      simp only [Option.map_eq_some_iff] at h
      obtain ⟨s2, hp, h⟩ := h
      cases h
      exact key _ s2 hp

/-- Everything about a compressor but the stream, the memory and the counters. -/
def SameFrame (z z' : Z) : Prop :=
  z'.status = z.status ∧ z'.tabs = z.tabs ∧ z'.sum = z.sum ∧ z'.maxdb = z.maxdb ∧ z'.keys = z.keys ∧ z'.max = z.max ∧ z'.zsize = z.zsize ∧ z'.unz = z.unz

theorem bag_ok {z z' : Z} {t : Tab} (hp : Plain t.db) (hfn : t.fnums = t.db.fields.length) {b k sidx : Nat} {src a : Bytes} {rs : List Bytes} {l : List Bool}
    (hl : Holds z.s l) (hm8 : z.max % 8 = 0) (hb : z.bags + 1 < 2 ^ 32)
    (hrs : ∀ i r, rs[i]? = some r → Dyn.elem src (i * t.db.size) t.db.size = some r) (ha : Dyn.elem z.mem (b + 1) t.db.size = some a)
    (h : bag z b k sidx rs.length t src = some z') :
    ∃ flag css, z.mem[b]? = some flag ∧ CodesAll t a rs css ∧ SameFrame z z' ∧ z'.bags = z.bags + 1 ∧ z'.init = (if z.init = 1 ∨ z.init = 0 then 2 else z.init) ∧
      z'.mem.length = z.mem.length ∧ (rs ≠ [] → z'.mem[b]? = some 1) ∧ (rs = [] → z'.mem = z.mem) ∧ Dyn.elem z'.mem (b + 1) t.db.size = some (rs.getLast?.getD a) ∧
      (∀ q, (q < b ∨ b + 1 + t.db.size ≤ q) → z'.mem[q]? = z.mem[q]?) ∧ z'.s.buf.length = z.s.buf.length ∧
      (getSize z' ≤ z.max / 8 →
        Holds z'.s (l ++ (callBits (headCalls z.init flag.toNat k sidx rs.length) ++ callBits css.flatten)) ∧
        getSize z' ≤ z'.s.buf.length ∧ z'.s.pos ≤ 8 * getSize z' ∧ 1 ≤ getSize z' ∧ getBags (z'.s.buf.take (getSize z')) = some (Dyn.signed 4 (z.bags + 1))) := by
  unfold bag at h
  simp only [Option.bind_eq_some_iff, Option.map_eq_some_iff] at h
  obtain ⟨flag, h1, s1, h2, ⟨m2, s2⟩, h3, ⟨s3, w⟩, h4, rfl⟩ := h
  obtain ⟨k1, k2⟩ := holds_put hl h2
  obtain ⟨css, c1, c2, c3, c4, c5, c6, c7⟩ := encRecs_ok hp hfn b src rs 0 z.mem s1 a m2 s2 (by simpa using hrs) ha h3
  obtain ⟨k3, k4⟩ := holds_put k1 c2
  refine ⟨flag, css, h1, c1, ⟨rfl, rfl, rfl, rfl, rfl, rfl, rfl, rfl⟩, rfl, rfl, c3, c4, c5, c6, c7, ?_, ?_⟩
  · have := setBags_buf k3.2.1 h4
    dsimp only
    omega
  intro hsz
  have hle : s2.pos ≤ z.max := by
    refine Classical.byContradiction fun hc => ?_
    dsimp only at h4
    obtain ⟨e1, e2⟩ := setBags_over (by omega) h4
    unfold getSize at hsz
    dsimp only at hsz
    omega
  obtain ⟨d1, d2, d3, d4, -, d5⟩ := setBags_ok k3 hle hm8 (by omega) hb h4
  have hpos : s3.pos = s2.pos := by rw [d1.1, k3.1]
  have hsize : getSize { z with s := s3, mem := m2, init := if z.init = 1 ∨ z.init = 0 then 2 else z.init, bags := z.bags + 1, bagsize := w } = (s2.pos + 7) / 8 + w := by
    unfold getSize
    dsimp only
    rw [hpos]
  rw [hsize]
  refine ⟨by rw [← List.append_assoc]; exact d1, by dsimp only; omega, by dsimp only; omega, by omega, d5⟩

theorem headCalls_bits (init flag k s n : Nat) : callBits (headCalls init flag k s n) = callBits (if init = 1 ∨ init = 0 then [(init, 1)] else []) ++
    (natBits 1 (if flag = 0 then 0 else 1) ++ (callBits (uintCalls k) ++ (callBits (uintCalls s) ++ callBits (uintCalls n)))) := by
  unfold headCalls
  rw [callBits_append, callBits_cons, callBits_append, callBits_append, List.append_assoc]

theorem headCalls_length (init flag k s n : Nat) : (callBits (headCalls init flag k s n)).length ≤ 107 := by
  unfold headCalls
  rw [callBits_append, callBits_cons, callBits_append, callBits_append]
  simp only [List.length_append, natBits_length]
  have h1 := uintCalls_length k
  have h2 := uintCalls_length s
  have h3 := uintCalls_length n
  have : (callBits (if init = 1 ∨ init = 0 then [(init, 1)] else [])).length ≤ 1 := by split <;> simp [callBits]
  omega

theorem headCalls_widths (init flag k s n : Nat) : Widths (headCalls init flag k s n) := by
  unfold headCalls
  refine widths_append (by split <;> intro c hc <;> simp at hc; subst hc; exact Nat.le_of_ble_eq_true rfl) ?_
  intro c hc
  rcases List.mem_cons.1 hc with rfl | hc
  · exact Nat.le_of_ble_eq_true rfl
  · exact widths_append (widths_append (uint_widths k) (uint_widths s)) (uint_widths n) c hc

/-- A bag that fits is written. -/
theorem bag_defined {z : Z} {t : Tab} (hp : Plain t.db) (hfn : t.fnums = t.db.fields.length) {b k sidx : Nat} {src a : Bytes} {rs : List Bytes}
    (hm8 : z.max % 8 = 0) (hb : z.bags + 1 < 2 ^ 32) (hmax : z.max ≤ 8 * z.s.buf.length)
    (hrs : ∀ i r, rs[i]? = some r → Dyn.elem src (i * t.db.size) t.db.size = some r) (ha : Dyn.elem z.mem (b + 1) t.db.size = some a)
    (hroom : z.s.pos + rs.length * bitsOf t.db + 154 ≤ z.max)
    (hlink : ∃ D, Begun t.db D a rs) :
    ∃ z', bag z b k sidx rs.length t src = some z' ∧ getSize z' ≤ z.max / 8 ∧ getSize z' ≤ (z.s.pos + rs.length * bitsOf t.db + 154) / 8 := by
  have hbl := (Dyn.elem_some ha).2.1
  obtain ⟨flag, hflag⟩ : ∃ flag, z.mem[b]? = some flag := ⟨_, List.getElem?_eq_getElem (by omega)⟩
  have hh := headCalls_length z.init flag.toNat k sidx rs.length
  obtain ⟨s1, e1, e2, e3, e4⟩ := putAll_spec (headCalls z.init flag.toNat k sidx rs.length) z.s (headCalls_widths z.init flag.toNat k sidx rs.length) (by omega)
  obtain ⟨m2, s2, g1, g2, g3⟩ := encRecs_defined hp hfn b src rs 0 z.mem s1 a (by simpa using hrs) ha (by omega) hlink
  have hs2 : s2.buf.length = z.s.buf.length := by
    obtain ⟨css, c1, c2, -⟩ := encRecs_ok hp hfn b src rs 0 z.mem s1 a m2 s2 (by simpa using hrs) ha g1
    have := (putAll_effect (by omega) c2).2.1
    omega
  obtain ⟨⟨s3, w⟩, f1⟩ := setBags_defined (s := s2) (max := z.max) (bags := z.bags + 1) (by omega) hm8 (by omega)
  have hs2h : Holds s2 ((toBits s2.buf).take s2.pos) := by
    refine ⟨?_, by omega, rfl⟩
    rw [List.length_take, toBits_length]
    omega
  obtain ⟨d1, d2, d3, d4, d5, d6⟩ := setBags_ok hs2h (by omega) hm8 (by omega) hb f1
  have hpos : s3.pos = s2.pos := by rw [d1.1, hs2h.1]; simp
  refine ⟨{ z with s := s3, mem := m2, init := if z.init = 1 ∨ z.init = 0 then 2 else z.init, bags := z.bags + 1, bagsize := w }, ?_, ?_⟩
  · unfold bag
    rw [hflag, Option.bind_some, e1, Option.bind_some, g1, Option.bind_some]
    dsimp only
    rw [f1]
    rfl
  · unfold getSize
    dsimp only
    omega

/-! ### Tables -/

/-- Where the tables of a compressor are. -/
structure Tabs (dbs : List Dyn.Db) (k : Nat) (z : Z) : Prop where
  len : z.tabs.length = dbs.length
  tab : ∀ i db, dbs[i]? = some db → z.tabs[i]? = some (⟨db, ((dbs.take i).map fun d => d.size + 1).sum, db.fields.length % 2 ^ 16⟩ : Tab)
  sum : z.sum = (dbs.map fun d => d.size + 1).sum
  keys : z.keys = k
  pos : 1 ≤ k
  max : ∀ db ∈ dbs, db.size ≤ z.maxdb

theorem Tabs.same {dbs : List Dyn.Db} {k : Nat} {z z' : Z} (h : Tabs dbs k z) (h1 : z'.tabs = z.tabs) (h2 : z'.sum = z.sum) (h3 : z'.keys = z.keys)
    (h4 : z'.maxdb = z.maxdb) : Tabs dbs k z' :=
  ⟨by rw [h1]; exact h.len, by rw [h1]; exact h.tab, by rw [h2]; exact h.sum, by rw [h3]; exact h.keys, h.pos, by rw [h4]; exact h.max⟩

theorem Ready.facts {dbs : List Dyn.Db} {k : Nat} {z : Z} (h : Ready dbs k z) : Tabs dbs k z ∧ z.bags = 0 ∧ z.bagsize = 0 ∧ z.s.pos = 0 := by
  induction h with
  | create => exact ⟨⟨rfl, by simp, rfl, rfl, by omega, by simp⟩, rfl, rfl, rfl⟩
  | @key dbs k z n _ ih =>
    obtain ⟨T, h1⟩ := ih
    refine ⟨⟨T.len, T.tab, T.sum, rfl, ?_, T.max⟩, h1⟩
    split <;> omega
  | @sdb dbs k z z' db i _ h ih =>
    obtain ⟨T, h1⟩ := ih
    unfold setSdb at h
    split at h
    · cases h
      refine ⟨⟨by simp [T.len], ?_, by simp [T.sum]; omega, T.keys, T.pos, ?_⟩, h1⟩
      · intro i db' hi
        by_cases hlt : i < dbs.length
        · rw [List.getElem?_append_left hlt] at hi
          rw [List.getElem?_append_left (by rw [T.len]; exact hlt), T.tab i db' hi, List.take_append_of_le_length (by omega)]
        · have hlen := (List.getElem?_eq_some_iff.1 hi).1
          have : i = dbs.length := by simp at hlen; omega
          subst this
          simp only [List.getElem?_append_right (Nat.le_refl _), Nat.sub_self, List.getElem?_cons_zero, Option.some.injEq] at hi
          subst hi
          rw [← T.len, List.getElem?_append_right (Nat.le_refl _)]
          simp only [Nat.sub_self, List.getElem?_cons_zero, Option.some.injEq]
          rw [T.len, List.take_append_of_le_length (Nat.le_refl _), List.take_length, ← T.sum]
      · intro d hd
        rcases List.mem_append.1 hd with hd | hd
        · exact Nat.le_trans (T.max d hd) (Nat.le_max_left _ _)
        · simp at hd
          subst hd
          exact Nat.le_max_right _ _
    · cases h

theorem bag_frame {z z' : Z} {b k sidx n : Nat} {t : Tab} {src : Bytes} (h : bag z b k sidx n t src = some z') : SameFrame z z' := by
  unfold bag at h
  simp only [Option.bind_eq_some_iff, Option.map_eq_some_iff] at h
  obtain ⟨flag, h1, s1, h2, ⟨m2, s2⟩, h3, ⟨s3, w⟩, h4, rfl⟩ := h
  exact ⟨rfl, rfl, rfl, rfl, rfl, rfl, rfl, rfl⟩

theorem compress_tabs {dbs : List Dyn.Db} {k : Nat} {z z' : Z} {src m fresh blk : Bytes} {n : Int} (h : Tabs dbs k z)
    (hc : compress z src m fresh = some (n, blk, z')) : Tabs dbs k z' := by
  unfold compress at hc
  split at hc
  · cases hc; exact h
  · dsimp only at hc
    split at hc
    · cases hc
    · split at hc
      · cases hc; exact h.same rfl rfl rfl rfl
      · split at hc
        · cases hc; exact h.same rfl rfl rfl rfl
        · split at hc
          · cases hc
          · simp only [Option.bind_eq_some_iff] at hc
            obtain ⟨buf, -, z1, h1, hc⟩ := hc
            obtain ⟨-, f1, f2, f3, f4, -⟩ := bag_frame h1
            split at hc
            · cases hc
              exact h.same f1 f2 f4 f3
            · cases hc

theorem Used.facts {dbs : List Dyn.Db} {k : Nat} {z : Z} (h : Used dbs k z) : Tabs dbs k z := by
  induction h with
  | ready h => exact h.facts.1
  | zip _ hc ih => exact compress_tabs ih hc

/-- The records of the source. -/
theorem flatten_elem {size : Nat} : ∀ (rs : List Bytes), (∀ r ∈ rs, r.length = size) → ∀ i r, rs[i]? = some r → Dyn.elem rs.flatten (i * size) size = some r := by
  intro rs
  induction rs with
  | nil => intro _ i r h; simp at h
  | cons a rs ih =>
    intro hl i r h
    have ha := hl a (by simp)
    cases i with
    | zero =>
      simp only [List.getElem?_cons_zero, Option.some.injEq] at h
      subst h
      rw [elem_eq_some (by simp; omega)]
      simp [← ha]
    | succ i =>
      have := ih (fun r hr => hl r (by simp [hr])) i r (by simpa using h)
      have hb := (Dyn.elem_some this).2.1
      rw [elem_eq_some (by rw [Nat.succ_mul, List.flatten_cons, List.length_append]; omega), ← this, elem_eq_some hb]
      congr 2
      rw [List.flatten_cons, Nat.succ_mul, List.drop_append, List.drop_of_length_le (by omega), List.nil_append]
      congr 1
      omega

theorem flatten_len {size : Nat} : ∀ (rs : List Bytes), (∀ r ∈ rs, r.length = size) → rs.flatten.length = rs.length * size := by
  intro rs
  induction rs with
  | nil => intro _; simp
  | cons a rs ih =>
    intro hl
    rw [List.flatten_cons, List.length_append, ih fun r hr => hl r (by simp [hr]), hl a (by simp), List.length_cons, Nat.succ_mul]
    omega

end Sis.Zip
