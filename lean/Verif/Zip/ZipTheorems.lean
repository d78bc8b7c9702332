import Verif.Zip.WholeLemmas
/-
C08 (records compressed and decompressed at once) and C10 (the number at the end of a block).
-/
namespace Sis.Zip
open Sis Sis.BitS

/-! ### C10 -/

/-- C10: a number of bags up to 2^31 - 1 that is written behind any bits is read back from the block.  Missing: see `C10_violated`. -/
theorem C10_partial {s s' : BitS} {max bags w : Nat} (hs : s.pos ≤ 8 * s.buf.length) (hm : s.pos ≤ max) (hm8 : max % 8 = 0) (h1 : 1 ≤ bags) (h2 : bags < 2 ^ 31)
    (h : setBags s max bags = some (s', w)) : getBags (s'.buf.take ((s'.pos + 7) / 8 + w)) = some (bags : Int) := by
  have hl : Holds s ((toBits s.buf).take s.pos) := ⟨by rw [List.length_take, toBits_length]; omega, hs, rfl⟩
  obtain ⟨a1, -, -, -, -, a2⟩ := setBags_ok hl hm hm8 h1 (by omega) h
  rw [show s'.pos = s.pos from a1.1.trans hl.1.symm, a2]
  unfold Dyn.signed
  rw [if_pos (by omega)]

/-- C10: what was written before is kept, and the number can be written whenever five bytes are left. -/
theorem C10_kept {s : BitS} {max bags : Nat} (hs : s.pos ≤ 8 * s.buf.length) (hm : s.pos ≤ max) (hm8 : max % 8 = 0) (h1 : 1 ≤ bags) (h2 : bags < 2 ^ 32)
    (hroom : (s.pos + 7) / 8 + 5 ≤ s.buf.length) :
    ∃ s' w, setBags s max bags = some (s', w) ∧ s'.pos = s.pos ∧ ∀ i < s.pos, bitAt s'.buf i = bitAt s.buf i := by
  obtain ⟨⟨s', w⟩, h⟩ := setBags_defined (bags := bags) hm hm8 hroom
  have hl : Holds s ((toBits s.buf).take s.pos) := ⟨by rw [List.length_take, toBits_length]; omega, hs, rfl⟩
  obtain ⟨a1, -⟩ := setBags_ok hl hm hm8 h1 h2 h
  have hp : s'.pos = s.pos := a1.1.trans hl.1.symm
  refine ⟨s', w, h, hp, fun i hi => ?_⟩
  have := congrArg (fun l => l[i]?) a1.2.2
  simp only [List.getElem?_take, hp, hi, if_true, toBits_getElem?] at this
  exact this

example : setBags ⟨List.replicate 9 7, 11⟩ 72 70000 = some (⟨[7, 7, 0, 1, 17, 112, 252, 7, 7], 11⟩, 5) ∧ getBags [7, 7, 0, 1, 17, 112, 252] = some 70000 := by
  decide +kernel

/-- C10 fails from 2^31 on: the number is read as a negative one, and the block is refused. -/
theorem C10_violated {s s' : BitS} {max bags w : Nat} (hs : s.pos ≤ 8 * s.buf.length) (hm : s.pos ≤ max) (hm8 : max % 8 = 0) (h1 : 2 ^ 31 ≤ bags) (h2 : bags < 2 ^ 32)
    (h : setBags s max bags = some (s', w)) : ∃ n : Int, n < 0 ∧ getBags (s'.buf.take ((s'.pos + 7) / 8 + w)) = some n := by
  have hl : Holds s ((toBits s.buf).take s.pos) := ⟨by rw [List.length_take, toBits_length]; omega, hs, rfl⟩
  obtain ⟨a1, -, -, -, -, a2⟩ := setBags_ok hl hm hm8 (by omega) h2 h
  rw [show s'.pos = s.pos from a1.1.trans hl.1.symm, a2]
  refine ⟨_, ?_, rfl⟩
  unfold Dyn.signed
  rw [if_neg (by omega)]
  omega

/-! ### C08 -/

theorem Tabs.first {db : Dyn.Db} {dbs : List Dyn.Db} {k : Nat} {z : Z} (T : Tabs (db :: dbs) k z) (hp : Plain db) :
    z.tabs[0]? = some ⟨db, 0, db.fields.length⟩ := by
  have := T.tab 0 db rfl
  rw [this, Nat.mod_eq_of_lt hp.2.1]
  simp

/-- C08: records compressed by one call are restored by one call, by any reader that was given the same table: as many records, and the
same number or text in each element of each field.  Missing: texts that become empty, numbers that change by 2^63, and blocks
larger than the records and 256 bytes; see the violations below. -/
theorem C08_partial {db : Dyn.Db} (hp : Plain db) {dbs dbs' : List Dyn.Db} {k k' : Nat} {z zr z' : Z} (hz : Used (db :: dbs) k z) (hzr : Used (db :: dbs') k' zr)
    {rs : List Bytes} (hlen : ∀ r ∈ rs, r.length = db.size) (hs : Sound db rs) {m fresh blk : Bytes} {n : Int}
    (h : compress z rs.flatten m fresh = some (n, blk, z')) (hfit : blk.length ≤ rs.flatten.length + 256)
    {m' fresh' : Bytes} (hfresh : fresh'.length = db.size * rs.length + 256) :
    ∃ out, uncompress zr blk m' fresh' = some ((rs.length : Int), out) ∧ out.length = rs.length * db.size ∧
      ∀ i r, rs[i]? = some r → SameRec db ((out.drop (i * db.size)).take db.size) r := by
  have T := hz.facts
  have T' := hzr.facts
  have hsz := made_size hp.1
  have hfl := flatten_len rs hlen
  have hsum : db.size + 1 ≤ z.sum := by rw [T.sum, List.map_cons, List.sum_cons]; omega
  have hkeys : 1 ≤ z.keys := by rw [T.keys]; exact T.pos
  have hks : z.sum ≤ z.keys * z.sum := by
    have := Nat.mul_le_mul_right z.sum hkeys
    omega
  unfold compress at h
  rw [T.first hp] at h
  dsimp only at h
  split at h
  · cases h
  unfold curMem at h
  rw [if_pos (show 0 < ({ z with bagsize := 0, bags := 0, mem := List.replicate (z.keys * z.sum) 0 } : Z).keys from hkeys)] at h
  dsimp only at h
  rw [if_neg (by rw [hfl, Nat.mul_mod_left]; simp)] at h
  split at h
  · cases h
  rename_i hbig
  simp only [Option.bind_eq_some_iff] at h
  obtain ⟨buf, hbuf, z2, hbag, h⟩ := h
  split at h
  case isFalse => cases h
  rename_i hle
  cases h
  rw [show rs.flatten.length / db.size = rs.length by rw [hfl, Nat.mul_div_cancel _ (by omega)], Nat.zero_mul] at hbag
  have ha : Dyn.elem (List.replicate (z.keys * z.sum) (0 : UInt8)) (0 + 0 + 1) db.size = some (List.replicate db.size 0) := by
    rw [elem_eq_some (by simp; omega), List.drop_replicate, List.take_replicate]
    congr 2
    omega
  obtain ⟨flag, css, b1, b2, -, b4, -, -, -, -, -, -, b5, b6⟩ := bag_ok (t := ⟨db, 0, db.fields.length⟩) hp rfl (l := []) (rs := rs)
    ⟨rfl, Nat.zero_le _, by simp⟩ (Nat.mul_mod_left _ _) (show 0 + 1 < 2 ^ 32 by omega) (fun i r hi => flatten_elem rs hlen i r hi) ha hbag
  dsimp only at b1 b4 b5 b6
  have hblk : (z2.s.buf.take (getSize z2)).length = getSize z2 := by rw [List.length_take, b5]; omega
  rw [hblk] at hfit
  obtain ⟨c1, -, c2, c3, c4⟩ := b6 (by omega)
  have hflag : flag = 0 := by
    rw [List.getElem?_replicate] at b1
    split at b1
    · exact (Option.some.inj b1).symm
    · cases b1
  subst hflag
  obtain ⟨rest, hv⟩ := holds_view c1 c2
  have hview : (⟨z2.s.buf.take (getSize z2), 0⟩ : BitS).view = natBits 1 1 ++ (natBits 1 0 ++ (callBits (uintCalls 0) ++ (callBits (uintCalls 0) ++
      (callBits (uintCalls rs.length) ++ (callBits css.flatten ++ rest))))) := by
    rw [hv, headCalls_bits]
    simp [callBits_one, List.append_assoc]
  have hcount : rs.length < 2 ^ 31 ∧ db.size * rs.length < 2 ^ 32 := by
    have : rs.length * 1 ≤ rs.length * db.size := Nat.mul_le_mul_left _ hsz.1
    rw [hfl] at hbig
    rw [Nat.mul_comm db.size]
    omega
  obtain ⟨out0, ho1, ho2⟩ : ∃ out0, setMax m' fresh' (db.size * rs.length) = some out0 ∧ db.size * rs.length ≤ out0.length := by
    unfold setMax
    split
    · exact ⟨fresh', by simp only [hfresh, if_true], by omega⟩
    · exact ⟨m', rfl, by omega⟩
  have hag : Begun db none (List.replicate db.size 0) rs := by
    cases rs with
    | nil => trivial
    | cons r rs => exact ⟨hs.2, rfl, hs.1⟩
  obtain ⟨out, d1, d2, -, d3⟩ := decAll_ok (t := ⟨db, 0, db.fields.length⟩) rs _ css 0 none out0 b2 (by dsimp only; rw [Nat.zero_add, Nat.mul_comm]; exact ho2) hag
  dsimp only at d2 d3
  obtain ⟨g1, v1⟩ := get_step 1 1 (by omega) (by omega) hview
  obtain ⟨g2, v2⟩ := get_step 1 0 (by omega) (by omega) v1
  obtain ⟨g3, v3⟩ := (Rd_getUint 0 (by omega)).view_eq v2
  obtain ⟨g4, v4⟩ := (Rd_getUint 0 (by omega)).view_eq v3
  obtain ⟨g5, v5⟩ := (Rd_getUint rs.length (by omega)).view_eq v4
  obtain ⟨g6, -⟩ := d1.view_eq v5
  refine ⟨out.take (db.size * rs.length), ?_, by rw [List.length_take, Nat.mul_comm rs.length]; omega, ?_⟩
  · unfold uncompress
    rw [T'.first hp]
    dsimp only
    rw [if_neg (by rw [hblk]; omega), c4, Option.bind_some, if_neg (by simp [Dyn.signed]), g1, Option.bind_some]
    dsimp only
    rw [if_neg (by decide), g2, Option.bind_some]
    dsimp only
    rw [if_neg (by decide), g3, Option.bind_some]
    dsimp only
    rw [g4, Option.bind_some]
    dsimp only
    rw [g5, Option.bind_some]
    dsimp only
    rw [if_neg (by omega), ho1, Option.bind_some, g6]
    rfl
  · intro i r hi
    obtain ⟨r', e1, e2⟩ := d3 i r hi
    have hlt := (List.getElem?_eq_some_iff.1 hi).1
    have hm : (i + 1) * db.size ≤ rs.length * db.size := Nat.mul_le_mul_right _ hlt
    rw [Nat.succ_mul, Nat.mul_comm rs.length] at hm
    obtain ⟨e3, e4, -⟩ := Dyn.elem_some e1
    rw [Nat.zero_add] at e3
    rw [List.drop_take, List.take_take, Nat.min_eq_left (by omega), ← e3]
    exact e2

/-- C08: records are compressed into one block that is not too large if the most they can take is at most 1894 bits more than their
bytes, for example 270 numbers or 52 texts. -/
theorem C08_defined_partial {db : Dyn.Db} (hp : Plain db) {dbs : List Dyn.Db} {k : Nat} {z : Z} (hz : Used (db :: dbs) k z)
    {rs : List Bytes} (hlen : ∀ r ∈ rs, r.length = db.size) (hs : Sound db rs) (hbits : rs.length * bitsOf db ≤ 8 * rs.flatten.length + 1894)
    (hmem : k * (((db :: dbs).map fun d => d.size + 1).sum) < 2 ^ 32) (hsrc : (rs.flatten.length + 256) * 8 < 2 ^ 31)
    {m fresh : Bytes} (hfresh : fresh.length = rs.flatten.length + 256 + 256) :
    ∃ blk z', compress z rs.flatten m fresh = some (1, blk, z') ∧ blk.length ≤ rs.flatten.length + 256 := by
  have T := hz.facts
  have hsz := made_size hp.1
  have hfl := flatten_len rs hlen
  have hsum : db.size + 1 ≤ z.sum := by rw [T.sum, List.map_cons, List.sum_cons]; omega
  have hkeys : 1 ≤ z.keys := by rw [T.keys]; exact T.pos
  have hks : z.sum ≤ z.keys * z.sum := by
    have := Nat.mul_le_mul_right z.sum hkeys
    omega
  obtain ⟨buf, ho1, ho2⟩ : ∃ buf, setMax m fresh (rs.flatten.length + 256) = some buf ∧ rs.flatten.length + 256 ≤ buf.length := by
    unfold setMax
    split
    · exact ⟨fresh, by simp only [hfresh], by omega⟩
    · exact ⟨m, rfl, by omega⟩
  have hx : (rs.flatten.length + 256) * 8 ≤ 8 * buf.length := by rw [Nat.mul_comm 8]; exact Nat.mul_le_mul_right 8 ho2
  have hy : 0 + rs.length * bitsOf db + 154 ≤ (rs.flatten.length + 256) * 8 := by
    clear hmem hfl hx
    generalize rs.length * bitsOf db = x at hbits ⊢
    omega
  have ha : Dyn.elem (List.replicate (z.keys * z.sum) (0 : UInt8)) (0 * z.sum + 0 + 1) db.size = some (List.replicate db.size 0) := by
    rw [elem_eq_some (by simp; omega), List.drop_replicate, List.take_replicate]
    congr 2
    omega
  have hag : Begun db none (List.replicate db.size 0) rs := by
    cases rs with
    | nil => trivial
    | cons r rs => exact ⟨hs.2, rfl, hs.1⟩
  obtain ⟨z1, hz1, e1, e2, e3, e4⟩ : ∃ z1 : Z, { z with s := ⟨buf, 0⟩, max := (rs.flatten.length + 256) * 8, init := 1, bagsize := 0, bags := 0, mem := List.replicate (z.keys * z.sum) 0 } = z1 ∧
      z1.bags = 0 ∧ z1.max = (rs.flatten.length + 256) * 8 ∧ z1.s = ⟨buf, 0⟩ ∧ z1.mem = List.replicate (z.keys * z.sum) 0 := ⟨_, rfl, rfl, rfl, rfl, rfl⟩
  obtain ⟨z2, q1, q2, -⟩ := bag_defined (z := z1) (t := ⟨db, 0, db.fields.length⟩) hp rfl (b := 0 * z.sum + 0) (k := 0) (sidx := 0) (src := rs.flatten) (rs := rs)
    (by rw [e2, Nat.mul_mod_left]) (by rw [e1]; decide) (by rw [e2, e3]; exact hx) (fun i r hi => flatten_elem rs hlen i r hi) (by rw [e4]; exact ha) (by rw [e2, e3]; exact hy) ⟨none, hag⟩
  have q3 : z2.bags = 1 ∧ z2.s.buf.length = buf.length := by
    obtain ⟨-, -, -, -, -, b4, -, -, -, -, -, -, b5, -⟩ := bag_ok (t := ⟨db, 0, db.fields.length⟩) hp rfl (l := []) (rs := rs)
      (by rw [e3]; exact ⟨rfl, Nat.zero_le _, by simp⟩) (by rw [e2, Nat.mul_mod_left]) (by rw [e1]; decide) (fun i r hi => flatten_elem rs hlen i r hi) (by rw [e4]; exact ha) q1
    rw [e1] at b4
    rw [e3] at b5
    exact ⟨b4, b5⟩
  refine ⟨z2.s.buf.take (getSize z2), { z2 with s := ⟨[], 0⟩, max := 0, mem := [] }, ?_, by rw [List.length_take]; omega⟩
  unfold compress
  rw [T.first hp]
  dsimp only
  rw [if_neg (by rw [T.keys, T.sum]; omega)]
  unfold curMem
  rw [if_pos (show 0 < ({ z with bagsize := 0, bags := 0, mem := List.replicate (z.keys * z.sum) 0 } : Z).keys from hkeys)]
  dsimp only
  rw [if_neg (by rw [hfl, Nat.mul_mod_left]; simp), if_neg (by omega), ho1, Option.bind_some,
    show rs.flatten.length / db.size = rs.length by rw [hfl, Nat.mul_div_cancel _ (by omega)], hz1, q1, Option.bind_some, if_pos (by omega), q3.1]
  rfl

/-! ### Cases of C08 -/

/-- Tables by their definitions. -/
def tableOf (ds : List Dyn.Def) : Dyn.Db := ((Dyn.create ds).join).getD ⟨[], [], 0, none, none⟩

/-- A table of a text of 4 bytes and two numbers of 2 bytes. -/
def mixed : Dyn.Db := tableOf [⟨some [0x6e], some .char, 4, 1, false, 0, false⟩, ⟨some [0x76], some .int, 2, 2, false, 0, false⟩]

/-- A table of a text of 4 bytes. -/
def named : Dyn.Db := tableOf [⟨some [0x6e], some .char, 4, 1, false, 0, false⟩]

/-- A table of a number of 8 bytes. -/
def long : Dyn.Db := tableOf [⟨some [0x76], some .int, 8, 1, false, 0, false⟩]

/-- A table of 700 numbers of 1 byte. -/
def wide : Dyn.Db := tableOf [⟨some [0x76], some .int, 1, 700, false, 0, false⟩]

/-- The fields of a table of one and of two fields. -/
theorem flds_one {db : Dyn.Db} {f : Dyn.Field} {P : Dyn.Field → Prop} (hl : db.fields.length = 1) (h0 : Dyn.fieldAt db 0 = some f) (h : P f) : Flds db P := by
  intro i g hg
  obtain ⟨e, h1, -⟩ := Dyn.fieldAt_some.1 hg
  have := (List.getElem?_eq_some_iff.1 h1).1
  have : i = 0 := by omega
  subst this
  rw [h0] at hg
  cases hg
  exact h

theorem flds_two {db : Dyn.Db} {f f' : Dyn.Field} {P : Dyn.Field → Prop} (hl : db.fields.length = 2) (h0 : Dyn.fieldAt db 0 = some f) (h1 : Dyn.fieldAt db 1 = some f')
    (h : P f) (h' : P f') : Flds db P := by
  intro i g hg
  obtain ⟨e, h2, -⟩ := Dyn.fieldAt_some.1 hg
  have := (List.getElem?_eq_some_iff.1 h2).1
  have : i = 0 ∨ i = 1 := by omega
  rcases this with rfl | rfl
  · rw [h0] at hg
    cases hg
    exact h
  · rw [h1] at hg
    cases hg
    exact h'

theorem mixed_plain : Plain mixed := by
  refine ⟨.create (ds := [⟨some [0x6e], some .char, 4, 1, false, 0, false⟩, ⟨some [0x76], some .int, 2, 2, false, 0, false⟩]) rfl (by decide), by decide, of_flds ?_⟩
  exact flds_two rfl (f := ⟨[0x6e], .char, 4, 1, 0, 0, false, false⟩) (f' := ⟨[0x76], .int, 2, 2, 4, 0, false, false⟩) rfl rfl (.inr rfl) (.inl ⟨.inl rfl, .inr (.inl rfl)⟩)

theorem named_plain : Plain named := by
  refine ⟨.create (ds := [⟨some [0x6e], some .char, 4, 1, false, 0, false⟩]) rfl (by decide), by decide, of_flds ?_⟩
  exact flds_one rfl (f := ⟨[0x6e], .char, 4, 1, 0, 0, false, false⟩) rfl (.inr rfl)

theorem long_plain : Plain long := by
  refine ⟨.create (ds := [⟨some [0x76], some .int, 8, 1, false, 0, false⟩]) rfl (by decide), by decide, of_flds ?_⟩
  exact flds_one rfl (f := ⟨[0x76], .int, 8, 1, 0, 0, false, false⟩) rfl (.inl ⟨.inl rfl, .inr (.inr (.inr rfl))⟩)

theorem wide_plain : Plain wide := by
  refine ⟨.create (ds := [⟨some [0x76], some .int, 1, 700, false, 0, false⟩]) rfl (by decide), by decide, of_flds ?_⟩
  exact flds_one rfl (f := ⟨[0x76], .int, 1, 700, 0, 0, false, false⟩) rfl (.inl ⟨.inl rfl, .inl rfl⟩)

/-- A compressor with one table. -/
def oneTab (db : Dyn.Db) : Z := ((setSdb create db).getD (0, create)).2

theorem oneTab_ready {db : Dyn.Db} (h : db.size ≤ 65536) : Ready [db] 1 (oneTab db) := by
  have : setSdb create db = some (0, oneTab db) := by
    unfold oneTab setSdb
    rw [if_pos (show create.sum + db.size + 1 < 2 ^ 32 by simp only [create]; omega)]
    rfl
  exact Ready.sdb .create this

/-- Two records of a text and two numbers, compressed to 13 bytes. -/
def twoRecs : List Bytes := [[0x53, 0x48, 0, 0, 1, 0, 2, 0], [0x53, 0x5a, 0, 0, 3, 0, 0xff, 0xff]]

example : Plain mixed ∧ Used [mixed] 1 (oneTab mixed) ∧ (∀ r ∈ twoRecs, r.length = mixed.size) ∧ Sound mixed twoRecs ∧
    (compress (oneTab mixed) twoRecs.flatten (List.replicate 272 7) []).map (fun r => (r.1, r.2.1)) = some (1, [128, 0, 40, 74, 105, 8, 81, 66, 83, 90, 69, 140, 1]) ∧
    uncompress (oneTab mixed) [128, 0, 40, 74, 105, 8, 81, 66, 83, 90, 69, 140, 1] (List.replicate 20 7) [] = some (2, twoRecs.flatten) := by
  refine ⟨mixed_plain, .ready (oneTab_ready (by decide)), by decide, ⟨?_, ?_, trivial⟩, by decide +kernel, by decide +kernel⟩
  · intro name f e hf he
    refine of_flds (P := fun f => ∀ e, e < f.count → (f.style = .char → text (Dyn.slot mixed.size [0x53, 0x48, 0, 0, 1, 0, 2, 0] 0 f e) ≠ []) ∧
      (f.style ≠ .char → f.len = 8 → leVal (Dyn.slot mixed.size [0x53, 0x48, 0, 0, 1, 0, 2, 0] 0 f e) ≠ 2 ^ 63)) (flds_two (db := mixed) rfl (f := ⟨[0x6e], .char, 4, 1, 0, 0, false, false⟩) (f' := ⟨[0x76], .int, 2, 2, 4, 0, false, false⟩) rfl rfl
      (by decide) (by decide)) name f hf e he
  · intro name f e hf he
    refine of_flds (P := fun f => ∀ e, e < f.count →
      (f.style = .char → text (Dyn.slot mixed.size [0x53, 0x5a, 0, 0, 3, 0, 0xff, 0xff] 0 f e) = [] → text (Dyn.slot mixed.size [0x53, 0x48, 0, 0, 1, 0, 2, 0] 0 f e) = []) ∧
      (f.style ≠ .char → f.len = 8 → leVal (Dyn.slot mixed.size [0x53, 0x5a, 0, 0, 3, 0, 0xff, 0xff] 0 f e) ≠ (leVal (Dyn.slot mixed.size [0x53, 0x48, 0, 0, 1, 0, 2, 0] 0 f e) + 2 ^ 63) % 2 ^ 64))
      (flds_two (db := mixed) rfl (f := ⟨[0x6e], .char, 4, 1, 0, 0, false, false⟩) (f' := ⟨[0x76], .int, 2, 2, 4, 0, false, false⟩) rfl rfl (by decide) (by decide)) name f hf e he

/-- The block that is compressed, without the state afterwards. -/
theorem blk_of {z : Z} {src m fresh : Bytes} {v : Int × Bytes} (h : (compress z src m fresh).map (fun r => (r.1, r.2.1)) = some v) :
    ∃ z', compress z src m fresh = some (v.1, v.2, z') := by
  obtain ⟨r, h1, h2⟩ := Option.map_eq_some_iff.1 h
  exact ⟨r.2.2, by rw [h1, ← h2]⟩

/-- C08 fails: the text of the second record, which is empty, is restored as the text of the first. -/
theorem C08_empty_violated : ∃ z blk z', Plain named ∧ Ready [named] 1 z ∧ compress z [0x41, 0, 0, 0, 0, 0, 0, 0] (List.replicate 264 0) [] = some (1, blk, z') ∧
    uncompress z blk (List.replicate 8 0) [] = some (2, [0x41, 0, 0, 0, 0x41, 0, 0, 0]) := by
  obtain ⟨z', h⟩ := blk_of (z := oneTab named) (src := [0x41, 0, 0, 0, 0, 0, 0, 0]) (m := List.replicate 264 0) (fresh := []) (v := (1, [128, 0, 40, 40, 32, 1])) (by decide +kernel)
  exact ⟨oneTab named, _, z', named_plain, oneTab_ready (by decide), h, by decide +kernel⟩

/-- C08 fails: the text of the first record, which is empty, is restored as what was in memory before. -/
theorem C08_stale_violated : ∃ z blk z', Plain named ∧ Ready [named] 1 z ∧ compress z [0, 0, 0, 0] (List.replicate 260 0) [] = some (1, blk, z') ∧
    uncompress z blk [1, 2, 3, 4] [] = some (1, [1, 2, 3, 4]) := by
  obtain ⟨z', h⟩ := blk_of (z := oneTab named) (src := [0, 0, 0, 0]) (m := List.replicate 260 0) (fresh := []) (v := (1, [128, 0, 16, 1])) (by decide +kernel)
  exact ⟨oneTab named, _, z', named_plain, oneTab_ready (by decide), h, by decide +kernel⟩

/-- C08 fails: the number -2^63 is restored as 0. -/
theorem C08_jump_violated : ∃ z blk z', Plain long ∧ Ready [long] 1 z ∧ compress z [0, 0, 0, 0, 0, 0, 0, 0x80] (List.replicate 264 0) [] = some (1, blk, z') ∧
    uncompress z blk (List.replicate 8 0) [] = some (1, List.replicate 8 0) := by
  obtain ⟨z', h⟩ := blk_of (z := oneTab long) (src := [0, 0, 0, 0, 0, 0, 0, 0x80]) (m := List.replicate 264 0) (fresh := []) (v := (1, [128, 0, 24, 1])) (by decide +kernel)
  exact ⟨oneTab long, _, z', long_plain, oneTab_ready (by decide), h, by decide +kernel⟩

theorem collect_bits {ι : Type} (g : ι → Option (List (Nat × Nat))) (c : List (Nat × Nat)) : ∀ (l : List ι) (cs : List (Nat × Nat)),
    (∀ i ∈ l, g i = some c) → Dyn.collect (l.map g) = some cs → (callBits cs).length = l.length * (callBits c).length := by
  intro l
  induction l with
  | nil => intro cs _ h; cases h; simp [callBits]
  | cons i l ih =>
    intro cs hB h
    simp only [List.map_cons, Dyn.collect, Option.bind_eq_some_iff, Option.map_eq_some_iff] at h
    obtain ⟨a, h1, b, h2, rfl⟩ := h
    rw [hB i (by simp)] at h1
    cases h1
    rw [callBits_append, List.length_append, ih b (fun i hi => hB i (by simp [hi])) h2, List.length_cons, Nat.succ_mul]
    omega

/-- C08 fails: a record of 700 numbers of one byte is written outside of the memory that was asked for. -/
theorem C08_overflow_violated (fresh : Bytes) : Plain wide ∧ Ready [wide] 1 (oneTab wide) ∧ wide.size = 700 ∧ compress (oneTab wide) (List.replicate 700 100) [] fresh = none := by
  refine ⟨wide_plain, oneTab_ready (by decide), rfl, ?_⟩
  refine Option.eq_none_iff_forall_ne_some.2 fun r h => ?_
  obtain ⟨src, hsrc, hlen⟩ : ∃ src : Bytes, src = List.replicate 700 100 ∧ src.length = 700 := ⟨_, rfl, List.length_replicate⟩
  rw [← hsrc] at h
  have hel : ∀ j, j < 700 → Dyn.elem src j 1 = some [100] := by
    intro j hj
    rw [elem_eq_some (by omega), hsrc, List.drop_replicate, List.take_replicate, Nat.min_eq_left (by omega)]
    rfl
  unfold compress at h
  rw [show (oneTab wide).tabs[0]? = some ⟨wide, 0, 1⟩ from rfl] at h
  dsimp only at h
  rw [show wide.size = 700 from rfl, hlen] at h
  split at h
  · cases h
  split at h
  · rename_i hc
    unfold curMem at hc
    rw [if_pos (show 0 < (oneTab wide).keys by decide)] at hc
    cases hc
  · rename_i b hb
    have hb0 : b = 0 := by
      unfold curMem at hb
      rw [if_pos (show 0 < (oneTab wide).keys by decide)] at hb
      have hb := Option.some.inj hb
      rw [← hb, Nat.zero_mul, Nat.zero_add]
    clear hb
    subst hb0
    rw [if_neg (by decide), if_neg (by decide)] at h
    simp only [Option.bind_eq_some_iff] at h
    obtain ⟨buf, hbuf, z2, hbag, -⟩ := h
    have hbl : buf.length = 1212 := by
      unfold setMax at hbuf
      rw [if_pos (by decide)] at hbuf
      split at hbuf
      · rename_i hf
        cases hbuf
        exact hf
      · cases hbuf
    unfold bag at hbag
    simp only [Option.bind_eq_some_iff] at hbag
    obtain ⟨flag, -, s1, h1, p, h2, -⟩ := hbag
    obtain ⟨e1, e2, -⟩ := putAll_effect (Nat.zero_le _) h1
    dsimp only at e1 e2
    rw [show 700 / 700 = 0 + 1 from rfl] at h2
    unfold encRecs at h2
    simp only [Option.bind_eq_some_iff] at h2
    obtain ⟨cs, h3, s2, h4, -⟩ := h2
    have hr := (putAll_room (by
      have := (putAll_room (Nat.zero_le _) h1).1
      dsimp only at this
      omega) h4).1
    rw [show (oneTab wide).keys * (oneTab wide).sum = 701 from rfl] at h3
    obtain ⟨mem, hmem, hml⟩ : ∃ mem : Bytes, mem = List.replicate 701 0 ∧ mem.length = 701 := ⟨_, rfl, List.length_replicate⟩
    rw [← hmem] at h3
    have hme : ∀ j, j < 700 → Dyn.elem mem (0 + 1 + j) 1 = some [0] := by
      intro j hj
      rw [elem_eq_some (by omega), hmem, List.drop_replicate, List.take_replicate, Nat.min_eq_left (by omega)]
      rfl
    unfold recCalls at h3
    simp only [show List.range 1 = [0] from rfl, List.map_cons, List.map_nil, Dyn.collect, Option.map_some, Option.bind_eq_some_iff, Option.some.injEq] at h3
    obtain ⟨cs', ⟨f, h5, h6⟩, h7⟩ := h3
    rw [show Dyn.fieldAt wide 0 = some ⟨[0x76], .int, 1, 700, 0, 0, false, false⟩ from rfl] at h5
    cases h5
    have hb := collect_bits _ (incrIntCalls 100 0) _ cs' (by
      intro j hj
      have hj : j < 700 := List.mem_range.1 hj
      have h8 := hel j hj
      have h9 := hme j hj
      unfold elemCalls
      dsimp only
      unfold Dyn.getInt
      dsimp only
      rw [if_pos (by decide), if_pos (by decide), Nat.mul_one, Nat.add_zero, Nat.add_zero, Nat.zero_mul, Nat.zero_add, h8, h9]
      rfl) h6
    rw [List.length_range, show (⟨[0x76], .int, 1, 700, 0, 0, false, false⟩ : Dyn.Field).count = 700 from rfl, show (callBits (incrIntCalls 100 0)).length = 14 by decide +kernel] at hb
    rw [List.append_nil] at h7
    subst h7
    omega

end Sis.Zip
