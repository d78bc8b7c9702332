import Verif.Zip.StepLemmas
/-
Stepwise compression and decompression: the state of both sides along a history.
-/
namespace Sis.Zip
open Sis Sis.BitS

/-! ### Where records are kept -/

/-- Where a table is in the memory of a key. -/
def off (dbs : List Dyn.Db) (s : Nat) : Nat := ((dbs.take s).map fun d => d.size + 1).sum

/-- The memory of one key. -/
def total (dbs : List Dyn.Db) : Nat := (dbs.map fun d => d.size + 1).sum

theorem off_succ {dbs : List Dyn.Db} {s : Nat} {db : Dyn.Db} (h : dbs[s]? = some db) : off dbs (s + 1) = off dbs s + db.size + 1 := by
  unfold off
  rw [List.take_add_one, h]
  simp [Nat.add_assoc]

theorem off_mono {dbs : List Dyn.Db} {s s' : Nat} (h : s ≤ s') : off dbs s ≤ off dbs s' := by
  unfold off
  have : dbs.take s' = dbs.take s ++ (dbs.take s').drop s := by
    conv => lhs; rw [← List.take_append_drop s (dbs.take s')]
    rw [List.take_take, Nat.min_eq_left h]
  rw [this, List.map_append, List.sum_append]
  omega

theorem off_total {dbs : List Dyn.Db} {s : Nat} {db : Dyn.Db} (h : dbs[s]? = some db) : off dbs s + db.size + 1 ≤ total dbs := by
  rw [← off_succ h]
  have h1 := (List.getElem?_eq_some_iff.1 h).1
  have : off dbs dbs.length = total dbs := by unfold off total; rw [List.take_length]
  rw [← this]
  exact off_mono h1

theorem apart {dbs : List Dyn.Db} {k s k' s' : Nat} {db db' : Dyn.Db} (h : dbs[s]? = some db) (h' : dbs[s']? = some db') (hne : ¬ (k' = k ∧ s' = s)) :
    k' * total dbs + off dbs s' + 1 + db'.size ≤ k * total dbs + off dbs s ∨ k * total dbs + off dbs s + 1 + db.size ≤ k' * total dbs + off dbs s' := by
  have a := off_total h
  have a' := off_total h'
  rcases Nat.lt_trichotomy k k' with hk | hk | hk
  · right
    have := Nat.mul_le_mul_right (total dbs) hk
    rw [Nat.succ_mul] at this
    omega
  · subst hk
    have hs : s' ≠ s := fun hs => hne ⟨rfl, hs⟩
    rcases Nat.lt_or_gt_of_ne hs with hs | hs
    · left
      have := off_mono (dbs := dbs) hs
      rw [show s'.succ = s' + 1 from rfl, off_succ h'] at this
      omega
    · right
      have := off_mono (dbs := dbs) hs
      rw [show s.succ = s + 1 from rfl, off_succ h] at this
      omega
  · left
    have := Nat.mul_le_mul_right (total dbs) hk
    rw [Nat.succ_mul] at this
    omega

theorem inside {dbs : List Dyn.Db} {k s keys : Nat} {db : Dyn.Db} (h : dbs[s]? = some db) (hk : k < keys) : k * total dbs + off dbs s + 1 + db.size ≤ keys * total dbs := by
  have a := off_total h
  have := Nat.mul_le_mul_right (total dbs) hk
  rw [Nat.succ_mul] at this
  omega

theorem many {dbs : List Dyn.Db} (hp : ∀ db ∈ dbs, Plain db) : 2 * dbs.length ≤ total dbs := by
  unfold total
  induction dbs with
  | nil => simp
  | cons db dbs ih =>
    have h1 := ih fun d hd => hp d (by simp [hd])
    have h2 := (made_size (hp db (by simp)).1).1
    simp only [List.length_cons, List.map_cons, List.sum_cons]
    omega

theorem off_append {dbs xs : List Dyn.Db} {s : Nat} (h : s ≤ dbs.length) : off (dbs ++ xs) s = off dbs s := by
  unfold off
  rw [List.take_append_of_le_length h]

theorem at_append {dbs xs : List Dyn.Db} {s : Nat} {db : Dyn.Db} (h : dbs[s]? = some db) : (dbs ++ xs)[s]? = some db := by
  rw [List.getElem?_append_left (List.getElem?_eq_some_iff.1 h).1, h]

theorem off_at {dbs xs : List Dyn.Db} {s : Nat} {db : Dyn.Db} (h : dbs[s]? = some db) : off (dbs ++ xs) s = off dbs s :=
  off_append (Nat.le_of_lt (List.getElem?_eq_some_iff.1 h).1)

/-! ### Both memories -/

/-- The memory of the writer for all keys and tables. -/
def WroteAll (dbs : List Dyn.Db) (keys : Nat) (mem : Bytes) (p : Last) : Prop :=
  mem.length = keys * total dbs ∧ (∀ k s db, k < keys → dbs[s]? = some db → Wrote db mem (k * total dbs + off dbs s) (p k s)) ∧ ∀ k s, keys ≤ k → p k s = none

/-- The memory of the reader for all keys and tables; it may have more tables, `xs`, behind those of the writer. -/
def KnowsAll (dbs xs : List Dyn.Db) (keys : Nat) (mem : Bytes) (p : Last) : Prop :=
  mem.length = keys * total (dbs ++ xs) ∧ ∀ k s db a, dbs[s]? = some db → p k s = some a → Knows db mem (k * total (dbs ++ xs) + off dbs s) a

theorem Knows.keep {db : Dyn.Db} {mem mem' : Bytes} {b : Nat} {a : Bytes} (h : Knows db mem b a) (hl : mem'.length = mem.length)
    (h' : ∀ q, b ≤ q → q < b + 1 + db.size → mem'[q]? = mem[q]?) : Knows db mem' b a := by
  obtain ⟨h1, d, h2, h3⟩ := h
  refine ⟨by rw [h' b (by omega) (by omega), h1], d, ?_, h3⟩
  rw [elem_same hl fun q q1 q2 => h' q (by omega) (by omega), h2]

theorem Wrote.keep {db : Dyn.Db} {mem mem' : Bytes} {b : Nat} {a : Option Bytes} (h : Wrote db mem b a)
    (h' : ∀ q, b ≤ q → q < b + 1 + db.size → mem'[q]? = mem[q]?) : Wrote db mem' b a := by
  have he : ∀ d, Dyn.elem mem (b + 1) db.size = some d → mem'.length ≥ b + 1 + db.size → Dyn.elem mem' (b + 1) db.size = some d := by
    intro d hd hlen
    have hd1 := Dyn.elem_some hd
    rw [elem_eq_some (by omega), hd1.1]
    congr 1
    apply List.ext_getElem?
    intro i
    rw [List.getElem?_take, List.getElem?_take]
    split
    · rw [List.getElem?_drop, List.getElem?_drop, h' _ (by omega) (by omega)]
    · rfl
  have hlen : ∀ d, Dyn.elem mem (b + 1) db.size = some d → mem'.length ≥ b + 1 + db.size := by
    intro d hd
    have hd1 := (Dyn.elem_some hd).2.1
    refine Classical.byContradiction fun hc => ?_
    have hb : mem'[b + db.size]? = none := List.getElem?_eq_none (by omega)
    rw [h' _ (by omega) (by omega), List.getElem?_eq_getElem (by omega)] at hb
    cases hb
  cases a with
  | none =>
    obtain ⟨h1, h2⟩ := h
    exact ⟨by rw [h' b (by omega) (by omega), h1], he _ h2 (hlen _ h2)⟩
  | some a =>
    obtain ⟨h1, h2⟩ := h
    exact ⟨by rw [h' b (by omega) (by omega), h1], he _ h2 (hlen _ h2)⟩

theorem wrote_zeros (dbs : List Dyn.Db) (keys : Nat) : WroteAll dbs keys (List.replicate (keys * total dbs) 0) fun _ _ => none := by
  refine ⟨by simp, fun k s db hk hs => ⟨?_, ?_⟩, fun _ _ _ => rfl⟩
  · have := inside hs hk
    rw [List.getElem?_replicate, if_pos (by omega)]
  · have := inside hs hk
    rw [elem_eq_some (by simp; omega), List.drop_replicate, List.take_replicate]
    congr 2
    omega

theorem Wrote.elem {db : Dyn.Db} {mem : Bytes} {b : Nat} {a : Option Bytes} (h : Wrote db mem b a) : Dyn.elem mem (b + 1) db.size = some (a.getD (List.replicate db.size 0)) := by
  cases a with
  | none => exact h.2
  | some a => exact h.2

theorem Wrote.flag {db : Dyn.Db} {mem : Bytes} {b : Nat} {a : Option Bytes} (h : Wrote db mem b a) {flag : UInt8} (hf : mem[b]? = some flag) : flag.toNat = if a = none then 0 else 1 := by
  cases a with
  | none =>
    rw [h.1] at hf
    cases hf
    rfl
  | some a =>
    rw [h.1] at hf
    cases hf
    rfl

theorem WroteAll.add {dbs : List Dyn.Db} {keys n : Nat} {mem : Bytes} {p : Last} (h : WroteAll dbs keys mem p) :
    WroteAll dbs (keys + n) (mem.take (keys * total dbs) ++ List.replicate (n * total dbs) 0) p := by
  obtain ⟨h1, h2, h3⟩ := h
  rw [List.take_of_length_le (by omega)]
  refine ⟨by simp [h1, Nat.add_mul], ?_, fun k s hk => h3 k s (by omega)⟩
  intro k s db hk hs
  by_cases hlt : k < keys
  · have := inside hs hlt
    exact (h2 k s db hlt hs).keep fun q q1 q2 => List.getElem?_append_left (by omega)
  · rw [h3 k s (by omega)]
    have hin := inside hs hk
    rw [Nat.add_mul] at hin
    have hlow : keys * total dbs ≤ k * total dbs := Nat.mul_le_mul_right _ (by omega)
    refine ⟨?_, ?_⟩
    · rw [List.getElem?_append_right (by omega), List.getElem?_replicate, if_pos (by omega)]
    · rw [elem_eq_some (by rw [List.length_append, List.length_replicate]; omega), List.drop_append, List.drop_of_length_le (by omega), List.nil_append, List.drop_replicate, List.take_replicate]
      congr 2
      omega

/-! ### The pending block -/

/-- The block being written and what a reader will make of it: `dec`, and the memory `mem'`, `unz'` of the reader afterwards. -/
inductive Pending (d : Z) (z : Z) : List Rec → Bytes → Bytes → Prop
  | none : z.bags = 0 → z.bagsize = 0 → z.s.pos = 0 → z.init = 0 ∨ z.init = 1 → Pending d z [] d.mem d.unz
  | some {b : Nat} {l : List Bool} {dec : List Rec} {mem' unz' : Bytes} : 0 < z.bags → z.init = 2 → getSize z ≤ z.zsize → getSize z ≤ z.s.buf.length → z.s.pos ≤ 8 * getSize z → 1 ≤ getSize z →
      getBags (z.s.buf.take (getSize z)) = some (Dyn.signed 4 z.bags) → Holds z.s (natBits 1 b ++ l) → z.bags ≤ l.length →
      Rd (unBags d.tabs d.keys d.sum z.bags d.mem d.unz) l (dec, mem', unz') → Pending d z dec mem' unz'

/-- The state of both sides. -/
structure Sim (dbs xs : List Dyn.Db) (kd zs : Nat) (z d : Z) (p : Last) (dec : List Rec) (mem' unz' : Bytes) : Prop where
  tabs : ∃ ke, Tabs dbs ke z
  status : z.status = 7
  zsize : z.zsize = zs
  max : z.max = zs * 8
  big : 1 ≤ zs
  buf : zs ≤ z.s.buf.length
  small : zs * 8 < 2 ^ 31
  keys : z.keys * z.sum < 2 ^ 32
  wrote : WroteAll dbs z.keys z.mem p
  pend : Pending d z dec mem' unz'
  dtabs : Tabs (dbs ++ xs) kd d
  dstatus : d.status = 11
  knows : KnowsAll dbs xs kd mem' p
  ulen : unz'.length = d.maxdb

theorem Tabs.total {dbs : List Dyn.Db} {k : Nat} {z : Z} (h : Tabs dbs k z) : z.sum = total dbs := h.sum

/-- The block is handed on and read. -/
theorem flush {dbs xs : List Dyn.Db} {kd zs : Nat} {z d : Z} {p : Last} {dec : List Rec} {mem' unz' blk : Bytes} (h : Sim dbs xs kd zs z d p dec mem' unz') (hpos : getSize z > 0)
    (hb : block z (getSize z) = some blk) :
    ∃ n d', unStep d blk = some (n, dec, d') ∧ 0 < n ∧ ∀ i, i = 0 ∨ i = 1 → Sim dbs xs kd zs { next z with init := i } d' p [] mem' unz' := by
  obtain ⟨T, hst, hzs, hmax, hbig, hbuf, hsmall, hkeys, hw, hpend, hdt, hds, hkn, hul⟩ := h
  cases hpend with
  | none e1 e2 e3 e4 =>
    unfold getSize at hpos
    omega
  | @some b l dec mem' unz' e1 e2 e3 e4 e5 e6 e7 e8 e9 e10 =>
    unfold block at hb
    rw [if_pos e4] at hb
    cases hb
    have hbags : z.bags < 2 ^ 31 := by
      have := e8.1
      rw [List.length_append, natBits_length] at this
      omega
    have hblk : (z.s.buf.take (getSize z)).length = getSize z := by rw [List.length_take]; omega
    obtain ⟨rest, hv⟩ := holds_view e8 e5
    rw [List.append_assoc] at hv
    obtain ⟨v1, w1⟩ := get_step 1 b (by omega) (by omega) hv
    obtain ⟨v2, w2⟩ := e10.view_eq w1
    obtain ⟨s', hs'⟩ : ∃ s', unBags d.tabs d.keys d.sum z.bags d.mem d.unz ((⟨z.s.buf.take (getSize z), 0⟩ : BitS).adv 1) = some ((dec, mem', unz'), s') := ⟨_, v2⟩
    refine ⟨(z.bags : Int), { d with mem := mem', unz := unz', s := s' }, ?_, by omega, ?_⟩
    · unfold unStep
      rw [if_neg (by rw [hds]; decide), if_neg (by rw [hblk]; omega), e7, Option.bind_some,
        show Dyn.signed 4 z.bags = (z.bags : Int) by unfold Dyn.signed; rw [if_pos (by omega)], if_neg (by omega), v1, Option.bind_some]
      dsimp only
      rw [show (z.bags : Int).toNat = z.bags from rfl, hs']
      rfl
    · intro i hi
      obtain ⟨ke, T⟩ := T
      exact ⟨⟨ke, T.same rfl rfl rfl rfl⟩, hst, hzs, by unfold next; dsimp only; rw [hzs], hbig, hbuf, hsmall, hkeys, hw, .none rfl rfl rfl hi, hdt.same rfl rfl rfl rfl, hds, hkn, hul⟩

/-- Pending does not depend on the keys of the writer. -/
theorem Pending.same {d z z' : Z} {dec : List Rec} {mem' unz' : Bytes} (h : Pending d z dec mem' unz') (h1 : z'.bags = z.bags) (h2 : z'.bagsize = z.bagsize) (h3 : z'.s = z.s)
    (h4 : z'.init = z.init) (h5 : z'.zsize = z.zsize) : Pending d z' dec mem' unz' := by
  have hg : getSize z' = getSize z := by unfold getSize; rw [h2, h3]
  cases h with
  | none e1 e2 e3 e4 => exact .none (h1.trans e1) (h2.trans e2) (by rw [h3]; exact e3) (by rw [h4]; exact e4)
  | some e1 e2 e3 e4 e5 e6 e7 e8 e9 e10 =>
    refine .some (by rw [h1]; exact e1) (h4.trans e2) (by rw [hg, h5]; exact e3) (by rw [hg, h3]; exact e4) (by rw [hg, h3]; exact e5) (by rw [hg]; exact e6) (by rw [hg, h3, h1]; exact e7)
      (by rw [h3]; exact e8) (by rw [h1]; exact e9) (by rw [h1]; exact e10)

/-- More keys. -/
theorem sim_add {dbs xs : List Dyn.Db} {kd zs : Nat} {z z' d : Z} {p : Last} {dec : List Rec} {mem' unz' : Bytes} (h : Sim dbs xs kd zs z d p dec mem' unz') {n : Nat} {r : Int}
    (ha : addKey z n = some (r, z')) : Sim dbs xs kd zs z' d p dec mem' unz' := by
  obtain ⟨⟨ke, T⟩, hst, hzs, hmax, hbig, hbuf, hsmall, hkeys, hw, hpend, hdt, hds, hkn, hul⟩ := h
  unfold addKey at ha
  split at ha
  · cases ha
  · rename_i hc
    cases ha
    refine ⟨⟨z.keys + n, ⟨T.len, T.tab, T.sum, rfl, ?_, T.max⟩⟩, hst, hzs, hmax, hbig, hbuf, hsmall, by dsimp only; omega, ?_, hpend.same rfl rfl rfl rfl rfl, hdt, hds, hkn, hul⟩
    · have := T.pos
      have := T.keys
      omega
    · dsimp only
      rw [T.total]
      exact hw.add

end Sis.Zip
