import Verif.Dyn.DynTheorems
/-
C53: records converted from one table to another keep the values of the fields of both, and have zeros in the others.
-/
namespace Sis.Dyn
open Sis

theorem field_fname {gdb fdb : Db} (L : Lay fdb.heap fdb.fields fdb.size) (hs : Short fdb) {name : Bytes} {f : Field} (hf : field fdb name = some f) :
    (∃ i, fieldAt fdb i = some f) ∧ field gdb f.fname = field gdb name := by
  obtain ⟨i, e, h1, h2, h3⟩ := field_some hf
  have h4 := lay_fname L hs (List.mem_of_getElem? h1) h2
  refine ⟨⟨i, fieldAt_some.2 ⟨e, h1, h2⟩⟩, ?_⟩
  unfold field
  rw [getN_congr gdb.fields (a := f.fname) (b := name)]
  rw [sameN_iff] at h3 h4 ⊢
  exact h4.trans h3.symm

theorem differ_change {gdb fdb : Db} (L : Lay fdb.heap fdb.fields fdb.size) (hs : Short fdb) (hd : Differ gdb fdb) {cs : List (Bytes × Conv)} {ch : Bool}
    (h : matchDb gdb fdb = some (cs, ch)) : ch = true := by
  obtain ⟨m1, m2, m3⟩ := matchDb_spec L hs h
  rw [m2]
  rcases hd with hd | hd | ⟨name, f, g, hf, hg, hne⟩
  · exact .inl (.inl hd)
  · exact .inl (.inr hd)
  · right
    obtain ⟨i, e, h1, h2, h3⟩ := field_some hf
    obtain ⟨f', c, b, h4, h5⟩ := m3 e (List.mem_of_getElem? h1)
    rw [h2] at h4; cases h4
    refine ⟨e, List.mem_of_getElem? h1, f, c, h2, ?_⟩
    obtain ⟨p1, p2, p3, p4, p5⟩ := matchOne_some h5
    have : b = true := by
      rw [p5]
      refine ⟨g, ?_, hne⟩
      rw [p2, (field_fname (gdb := gdb) L hs hf).2, hg]
    rw [← this]; exact h5

theorem intLen_iff {n : Nat} : intLen n = true ↔ n = 1 ∨ n = 2 ∨ n = 4 ∨ n = 8 := by simp [intLen, or_assoc]

theorem slot_elem {size : Nat} {src : Bytes} {r : Nat} {g : Field} {i : Nat} {e : Bytes} (h : elem src (r * size + g.offset + i * g.len) g.len = some e) :
    e = slot size src r g i ∧ e.length = g.len := by
  obtain ⟨h1, h2, h3⟩ := elem_some h
  exact ⟨h1, h3⟩

theorem num_signed {g : Field} (hg : Whole g) (hi : g.style = .int) (b : Bytes) : signed g.len (leVal b) = num g b := by
  unfold signed num
  have hx : (if g.style = St.int ∧ 2 ^ (8 * g.len) ≤ 2 * leVal b then (leVal b : Int) - 2 ^ (8 * g.len) else leVal b) =
      if 2 ^ (8 * g.len) ≤ 2 * leVal b then (leVal b : Int) - 2 ^ (8 * g.len) else leVal b := by simp [hi]
  rw [hx]
  rcases hg.2 with h | h | h | h <;> rw [h] <;> split <;> split <;> first | rfl | (exfalso; omega)

theorem stored {f : Field} (hf : Whole f) {n : Int} (hn : Fits f n) (u : Nat) (hu : u = (n % 2 ^ 64).toNat) : num f (leBytes f.len u) = n := by
  unfold Fits at hn
  unfold num
  rw [leVal_leBytes]
  subst hu
  rcases hf.1 with hs | hs
  · rw [if_pos hs] at hn
    simp only [hs, true_and]
    rcases hf.2 with h | h | h | h <;> rw [h] at hn ⊢ <;> split <;> omega
  · rw [if_neg (by rw [hs]; simp)] at hn
    rw [if_neg (by rw [hs]; simp)]
    rcases hf.2 with h | h | h | h <;> rw [h] at hn ⊢ <;> omega

theorem num_mod {g : Field} (hg : Whole g) (hu : g.style = .uint) {b : Bytes} (hb : b.length = g.len) : leVal b = (num g b % 2 ^ 64).toNat := by
  have h1 := leVal_lt b
  unfold num
  rw [if_neg (by rw [hu]; simp)]
  rw [hb] at h1
  rcases hg.2 with h | h | h | h <;> rw [h] at h1 <;> omega

theorem timeStyle_unit (s : St) : timeStyle s = unitOf s := by cases s <;> rfl

/-- The element a converted number becomes. -/
theorem convElem_num {v : Time.Env} {fl : Float} {g f : Field} {size : Nat} {src : Bytes} {r i : Nat} {ws : List W} (hg : Whole g) (hf : Whole f)
    (h : convElem v fl g f src (r * size) i = some ws) :
    (slot size src r g i).length = g.len ∧
      ws = [(f.offset + i * f.len, leBytes f.len (num g (slot size src r g i) % 2 ^ 64).toNat)] := by
  have h1 := intLen_iff.2 hg.2
  have h2 := intLen_iff.2 hf.2
  rcases hg.1 with hgs | hgs <;> rcases hf.1 with hfs | hfs <;> unfold convElem at h <;> rw [hgs, hfs] at h <;> dsimp only at h
  · obtain ⟨n, h3, rfl⟩ := Option.map_eq_some_iff.1 h
    unfold getInt at h3
    rw [if_pos h1] at h3
    obtain ⟨e, h4, rfl⟩ := Option.map_eq_some_iff.1 h3
    obtain ⟨rfl, h6⟩ := slot_elem h4
    refine ⟨h6, ?_⟩
    rw [num_signed hg hgs, setNum, if_pos h2, Time.u64]
    simp
  · obtain ⟨n, h3, rfl⟩ := Option.map_eq_some_iff.1 h
    unfold getInt at h3
    rw [if_pos h1] at h3
    obtain ⟨e, h4, rfl⟩ := Option.map_eq_some_iff.1 h3
    obtain ⟨rfl, h6⟩ := slot_elem h4
    refine ⟨h6, ?_⟩
    rw [num_signed hg hgs, setNum, if_pos h2, Time.u64]
    simp
  · rw [if_neg (by simp)] at h
    obtain ⟨n, h3, h⟩ := Option.bind_eq_some_iff.1 h
    simp only [timeStyle] at h
    cases h
    unfold getUint at h3
    rw [if_pos h1] at h3
    obtain ⟨e, h4, rfl⟩ := Option.map_eq_some_iff.1 h3
    obtain ⟨rfl, h6⟩ := slot_elem h4
    refine ⟨h6, ?_⟩
    rw [← num_mod hg hgs h6, setNum, if_pos h2]
    simp
  · rw [if_neg (by simp)] at h
    obtain ⟨n, h3, h⟩ := Option.bind_eq_some_iff.1 h
    simp only [timeStyle] at h
    cases h
    unfold getUint at h3
    rw [if_pos h1] at h3
    obtain ⟨e, h4, rfl⟩ := Option.map_eq_some_iff.1 h3
    obtain ⟨rfl, h6⟩ := slot_elem h4
    refine ⟨h6, ?_⟩
    rw [← num_mod hg hgs h6, setNum, if_pos h2]
    simp

theorem convElem_char {v : Time.Env} {fl : Float} {g f : Field} {size : Nat} {src : Bytes} {r i : Nat} {ws : List W} (hg : g.style = .char) (hf : f.style = .char)
    (h : convElem v fl g f src (r * size) i = some ws) :
    ws = [(f.offset + i * f.len, (slot size src r g i).take f.len)] ∧ ((slot size src r g i).take f.len).length = min g.len f.len := by
  unfold convElem at h
  rw [hg, hf] at h
  obtain ⟨e, h1, rfl⟩ := Option.map_eq_some_iff.1 h
  obtain ⟨h2, h3, h4⟩ := elem_some h1
  have : e = (slot size src r g i).take f.len := by
    rw [h2]
    unfold slot
    rw [List.take_take, Nat.min_comm]
  exact ⟨by rw [this], by rw [← this, h4]⟩

theorem convElem_time {v : Time.Env} {fl : Float} {g f : Field} {size : Nat} {src : Bytes} {r i : Nat} {ws : List W} {a b : Time.Style}
    (hg : timeStyle g.style = some a) (hf : timeStyle f.style = some b) (hgl : intLen g.len = true) (hfl : intLen f.len = true)
    (h : convElem v fl g f src (r * size) i = some ws) :
    ∃ m, Time.convert v a b (leVal (slot size src r g i)) = some m ∧ ws = [(f.offset + i * f.len, leBytes f.len m)] := by
  have key : (getUint g src (r * size) i).bind (fun n => (Time.convert v a b n).map fun m => setNum f 0 m i) = some ws := by
    unfold convElem at h
    cases hgs : g.style <;> rw [hgs] at hg h <;> simp only [timeStyle] at hg <;> cases hg <;>
      cases hfs : f.style <;> rw [hfs] at hf h <;> simp only [timeStyle] at hf <;> cases hf <;>
      simpa [timeStyle] using h
  obtain ⟨n, h1, h2⟩ := Option.bind_eq_some_iff.1 key
  obtain ⟨m, h3, rfl⟩ := Option.map_eq_some_iff.1 h2
  unfold getUint at h1
  rw [if_pos hgl] at h1
  obtain ⟨e, h4, rfl⟩ := Option.map_eq_some_iff.1 h1
  obtain ⟨rfl, h6⟩ := slot_elem h4
  refine ⟨m, h3, ?_⟩
  rw [setNum, if_pos hfl]
  simp

/-- C53: a conversion between two tables that can be told apart, where the names of the target have at most 31 bytes, puts in
every field of every record: zeros, if the source has no field of that name, and in elements the source does not have; the
same bytes, for a field of the same type and length; as much of the text as there is room for and zeros behind it; the same
number, if it fits; and the converted time. -/
theorem C53_partial {v : Time.Env} {fl : Float} {gdb fdb : Db} {src out out' : Bytes} (hgm : Made gdb) (hfm : Made fdb)
    (hs : ∀ e ∈ fdb.fields, e.1.length ≤ 31) (hd : Differ gdb fdb) (h : convert v fl gdb fdb src out = some (0, out'))
    {r : Nat} (hr : r < src.length / gdb.size) {name : Bytes} {f : Field} (hf : field fdb name = some f) :
    (field gdb name = none → ∀ e, e < f.count → slot fdb.size out' r f e = List.replicate f.len 0) ∧
    ∀ g, field gdb name = some g →
      (∀ e, g.count ≤ e → e < f.count → slot fdb.size out' r f e = List.replicate f.len 0) ∧
      ∀ e, e < g.count → e < f.count →
        (g.style = f.style → g.len = f.len → slot fdb.size out' r f e = slot gdb.size src r g e) ∧
        (g.style = .char → f.style = .char →
          slot fdb.size out' r f e = (slot gdb.size src r g e).take f.len ++ List.replicate (f.len - g.len) 0) ∧
        (Whole g → Whole f → Fits f (num g (slot gdb.size src r g e)) → num f (slot fdb.size out' r f e) = num g (slot gdb.size src r g e)) ∧
        (∀ a b, unitOf g.style = some a → unitOf f.style = some b → g.style ≠ f.style → (g.len = 4 ∨ g.len = 8) → (f.len = 4 ∨ f.len = 8) →
          ∃ m, Time.convert v a b (leVal (slot gdb.size src r g e)) = some m ∧ leVal (slot fdb.size out' r f e) = m % 256 ^ f.len) := by
  have L := made_lay hfm
  obtain ⟨⟨cs, ch⟩, hm⟩ := matchDb_some (made_lay hgm) L
  have hch := differ_change L hs hd hm
  subst hch
  obtain ⟨⟨i, hi⟩, hn⟩ := field_fname (gdb := gdb) L hs hf
  obtain ⟨c, b, a, h1, h2, h3⟩ := convert_byte L hs hm h hr hi
  obtain ⟨p1, p2, p3, p4, p5⟩ := matchOne_some h1
  rw [hn] at p2
  have hB : Bytewise a fdb.size out' r f := h3
  refine ⟨?_, ?_⟩
  · intro hno e he
    rw [hno] at p2
    unfold shift at h2
    rw [p2] at h2
    cases h2
    exact slot_zero hB he (by simp)
  · intro g hg
    rw [hg] at p2
    cases hcv : c.conv
    · obtain ⟨p6, p7⟩ := p3 hcv g p2
      rw [← p1] at hB
      obtain ⟨q1, q2⟩ := slot_copy p2 hcv (by rw [p1]; exact p6) h2 hB
      rw [p1] at q1 q2
      refine ⟨q1, fun e he he' => ?_⟩
      have hsame := q2 e (by omega)
      have hlen : g.len = f.len := p6
      refine ⟨fun _ _ => hsame, fun _ _ => ?_, fun _ _ _ => ?_, fun _ _ _ _ hne => absurd p7 hne⟩
      · rw [hsame, hlen, Nat.sub_self, ← hlen]
        rw [List.take_of_length_le (slot_len _ _ _ _ _)]
        simp
      · rw [hsame]
        unfold num
        rw [hlen, p7]
    · obtain ⟨g', p6, p7⟩ := p4 hcv
      rw [p2] at p6; cases p6
      rw [← p1] at hB
      obtain ⟨q1, q2⟩ := slot_conv p2 hcv h2 hB
      rw [p1] at q1 q2
      refine ⟨q1, fun e he he' => ?_⟩
      obtain ⟨ws, w1, w2, w3⟩ := q2 e (by omega)
      refine ⟨fun hs hl => ?_, fun hgs hfs => ?_, fun hgw hfw hfit => ?_, fun a b ha hb _ hgl hfl => ?_⟩
      · rcases p7 with p7 | p7
        · exact absurd hs p7
        · exact absurd hl p7
      · obtain ⟨w4, w5⟩ := convElem_char hgs hfs w1
        rw [w3 _ w4, w5]
        congr 2
        omega
      · obtain ⟨w4, w5⟩ := convElem_num hgw hfw w1
        rw [w3 _ w5]
        simp only [leBytes_length, Nat.sub_self, List.replicate_zero, List.append_nil]
        exact stored hfw hfit _ rfl
      · obtain ⟨m, w4, w5⟩ := convElem_time (by rw [timeStyle_unit]; exact ha) (by rw [timeStyle_unit]; exact hb) (intLen_iff.2 (by omega)) (intLen_iff.2 (by omega)) w1
        refine ⟨m, w4, ?_⟩
        rw [w3 _ w5]
        simp only [leBytes_length, Nat.sub_self, List.replicate_zero, List.append_nil]
        exact leVal_leBytes _ _

/-- C53: two tables that cannot be told apart are taken for the same, and records are copied. -/
theorem C53_copy {v : Time.Env} {fl : Float} {gdb fdb : Db} {src out out' : Bytes} (hfm : Made fdb)
    (hs : ∀ e ∈ fdb.fields, e.1.length ≤ 31) (hd : ¬ Differ gdb fdb) (h : convert v fl gdb fdb src out = some (0, out')) : out' = src := by
  have L := made_lay hfm
  unfold convert at h
  obtain ⟨⟨cs, ch⟩, hm, h⟩ := Option.bind_eq_some_iff.1 h
  obtain ⟨m1, m2, m3⟩ := matchDb_spec L hs hm
  have hch : ch = false := by
    rw [← Bool.not_eq_true]
    intro hc
    apply hd
    rcases m2.1 hc with (hc | hc) | ⟨e, he, f, c, h1, h2⟩
    · exact .inl hc
    · exact .inr (.inl hc)
    · obtain ⟨p1, p2, p3, p4, p5⟩ := matchOne_some h2
      obtain ⟨g, hg, hne⟩ := p5.1 rfl
      refine .inr (.inr ⟨f.fname, f, g, ?_, by rw [← p2, hg], hne⟩)
      obtain ⟨i, hi⟩ := List.mem_iff_getElem?.1 he
      unfold field
      rw [getN_at L hi (lay_fname L hs he h1), Option.bind_some, h1]
  subst hch
  dsimp only at h
  split at h
  · cases h
  split at h
  · cases h
  split at h
  · cases h
  split at h
  · cases h
  rename_i h1 h2 h3 h4
  simp only [Bool.false_eq_true, if_false] at h
  obtain ⟨o, ho, hoo⟩ := Option.map_eq_some_iff.1 h
  cases hoo
  obtain ⟨h5, h6, h7⟩ := elem_some ho
  have hsz : fdb.size = gdb.size := by
    refine Classical.byContradiction fun hne => hd (.inl hne)
  have hlen : out.length = src.length := by
    have h4' : src.length / gdb.size * fdb.size = out.length := Classical.not_not.1 h4
    have h3' : src.length / gdb.size * gdb.size = src.length := Classical.not_not.1 h3
    rw [hsz] at h4'
    omega
  rw [h5, hlen]
  simp

theorem convert_time_some {v : Time.Env} {s s' : St} {a b : Time.Style} (ha : timeStyle s = some a) (hb : timeStyle s' = some b) (h : s = .date ↔ s' = .date) (n : Nat) :
    ∃ m, Time.convert v a b n = some m := by
  cases s <;> cases s' <;> simp [timeStyle] at ha hb h <;> subst ha <;> subst hb <;> exact ⟨_, rfl⟩

theorem convElem_some {v : Time.Env} {fl : Float} {g f : Field} {src : Bytes} {ib i : Nat} (hin : ib + g.offset + i * g.len + g.len ≤ src.length)
    (hfl : (f.style = .float ∨ f.style = .price) → f.len = 4 ∨ f.len = 8) 
    (htm : unitOf g.style ≠ none → unitOf f.style ≠ none → (g.style = .date ↔ f.style = .date)) : ∃ ws, convElem v fl g f src ib i = some ws := by
  have e1 : ∃ e, elem src (ib + g.offset + i * g.len) g.len = some e := ⟨_, by rw [elem, if_pos hin]⟩
  have e2 : ∃ e, elem src (ib + g.offset + i * g.len) (min g.len f.len) = some e := ⟨_, by rw [elem, if_pos (by omega)]⟩
  have hset : ∃ ws, setFloat fl g f src ib i = some ws := by
    obtain ⟨e, he⟩ := e1
    unfold setFloat
    rw [he, Option.bind_some]
    by_cases h : f.style = .float ∨ f.style = .price
    · rw [if_pos h, if_pos (hfl h)]; exact ⟨_, rfl⟩
    · rw [if_neg h]; exact ⟨_, rfl⟩
  have hint : ∃ n, getInt g src ib i = some n := by
    obtain ⟨e, he⟩ := e1
    unfold getInt; split
    · exact ⟨_, by rw [he]; rfl⟩
    · exact ⟨_, rfl⟩
  have huint : ∃ n, getUint g src ib i = some n := by
    obtain ⟨e, he⟩ := e1
    unfold getUint; split
    · exact ⟨_, by rw [he]; rfl⟩
    · exact ⟨_, rfl⟩
  obtain ⟨x1, x1h⟩ := hset
  obtain ⟨x2, x2h⟩ := hint
  obtain ⟨x3, x3h⟩ := huint
  obtain ⟨x4, x4h⟩ := e2
  unfold convElem
  split
  · exact ⟨_, by rw [x4h]; rfl⟩
  · exact ⟨_, rfl⟩
  · exact ⟨_, rfl⟩
  · exact ⟨_, rfl⟩
  · exact ⟨_, rfl⟩
  · exact ⟨_, x1h⟩
  · exact ⟨_, by rw [x2h]; rfl⟩
  · exact ⟨_, x1h⟩
  · exact ⟨_, x1h⟩
  · split
    · exact ⟨_, x1h⟩
    · rw [x3h, Option.bind_some]
      split
      · rename_i a b ha hb
        have := convert_time_some (v := v) ha hb (htm (by rw [← timeStyle_unit, ha]; simp) (by rw [← timeStyle_unit, hb]; simp)) x3
        obtain ⟨m, hm⟩ := this
        exact ⟨_, by rw [hm]; rfl⟩
      · exact ⟨_, rfl⟩

theorem shift_some {v : Time.Env} {fl : Float} {c : Conv} {src : Bytes} {ib gsize : Nat} (hib : ib + gsize ≤ src.length)
    (hg : ∀ g, c.g = some g → g.offset + g.len * g.count ≤ gsize ∧ ((c.f.style = .float ∨ c.f.style = .price) → c.f.len = 4 ∨ c.f.len = 8) ∧
      (unitOf g.style ≠ none → unitOf c.f.style ≠ none → (g.style = .date ↔ c.f.style = .date))) : ∃ ws, shift v fl c src ib = some ws := by
  unfold shift
  split
  · exact ⟨_, rfl⟩
  · rename_i g hgg
    obtain ⟨h1, h2, h3⟩ := hg g hgg
    split
    · apply collect_some
      intro x hx
      obtain ⟨i, hi, rfl⟩ := List.mem_map.1 hx
      have hi' : i < min g.count c.f.count := by simpa using hi
      apply convElem_some _ h2 h3
      have : (i + 1) * g.len ≤ g.count * g.len := Nat.mul_le_mul_right _ (by omega)
      rw [Nat.succ_mul] at this
      rw [Nat.mul_comm g.len] at h1
      omega
    · have : g.len * min g.count c.f.count ≤ g.len * g.count := Nat.mul_le_mul_left _ (Nat.min_le_left _ _)
      exact ⟨_, by rw [elem, if_pos (by omega)]; rfl⟩

/-- C53: whole records of one table are converted without undefined behaviour into a buffer of the size that
`sis_dynamic_convert_length` says, when floating point numbers and prices of the target have 4 or 8 bytes and no date becomes
or comes from another unit of time. -/
theorem C53_defined_partial (v : Time.Env) (fl : Float) {gdb fdb : Db} {src out : Bytes} (hgm : Made gdb) (hfm : Made fdb)
    (hs : ∀ e ∈ fdb.fields, e.1.length ≤ 31) (hsrc : src ≠ []) (hm : src.length % gdb.size = 0) (hlen : out.length = convertLength gdb fdb src)
    (h1 : src.length < 2 ^ 31) (h2 : out.length < 2 ^ 31)
    (hok : ∀ name f g, field fdb name = some f → field gdb name = some g →
      ((f.style = .float ∨ f.style = .price) → f.len = 4 ∨ f.len = 8) ∧
      (unitOf g.style ≠ none → unitOf f.style ≠ none → (g.style = .date ↔ f.style = .date))) :
    ∃ out', convert v fl gdb fdb src out = some (0, out') ∧ out'.length = out.length := by
  have G := made_lay hgm
  have L := made_lay hfm
  have hsz : ∀ {db : Db}, Made db → 1 ≤ db.size := by
    intro db h
    induction h with
    | create h _ =>
      obtain ⟨db₀, _, hw, rfl⟩ := create_some h
      exact hw
    | @add db db' name style len count dot _ hl hc hs h ih =>
      unfold addField at h
      split at h
      · cases h; exact ih
      · split at h
        · cases h
          dsimp only
          have : len * count = count * len := Nat.mul_comm _ _
          omega
        · cases h
  have hg1 := hsz hgm
  have hf1 := hsz hfm
  have hl1 : src.length ≠ 0 := fun h => hsrc (List.length_eq_zero_iff.1 h)
  have hdiv : src.length / gdb.size * gdb.size = src.length := by
    have := Nat.div_add_mod src.length gdb.size
    rw [hm, Nat.mul_comm] at this
    omega
  have hout : src.length / gdb.size * fdb.size = out.length := by
    rw [hlen, convertLength, if_neg hl1, if_neg (by omega)]
  have hcnt : 1 ≤ src.length / gdb.size := by
    rcases Nat.eq_zero_or_pos (src.length / gdb.size) with h | h
    · rw [h] at hdiv; omega
    · exact h
  have ho1 : out.length ≠ 0 := by
    rw [← hout]
    exact Nat.ne_of_gt (Nat.mul_pos hcnt hf1)
  obtain ⟨⟨cs, ch⟩, hmt⟩ := matchDb_some G L
  obtain ⟨m1, m2, m3⟩ := matchDb_spec L hs hmt
  unfold convert
  rw [hmt, Option.bind_some]
  dsimp only
  rw [if_neg (by omega), if_neg (by omega), if_neg (by omega), if_neg (by omega)]
  cases ch
  · have hsize : fdb.size = gdb.size := by
      refine Classical.byContradiction fun hne => ?_
      have := m2.2 (.inl (.inl hne))
      cases this
    rw [hsize] at hout
    rw [if_neg (by simp), elem, if_pos (by omega)]
    exact ⟨_, rfl, by simp; omega⟩
  · rw [if_pos rfl]
    have hex : ∃ o, owner v fl gdb.size fdb.size cs src (src.length / gdb.size) 0 (List.replicate out.length 0) = some o := by
      apply owner_some (all_in L hs hmt)
      · intro r hr
        apply collect_some
        intro x hx
        obtain ⟨y, hy, rfl⟩ := List.mem_map.1 hx
        obtain ⟨e, he, f, b, hf, hc⟩ := (m1 y.2).1 (List.mem_map.2 ⟨y, hy, rfl⟩)
        obtain ⟨p1, p2, -⟩ := matchOne_some hc
        apply shift_some (gsize := gdb.size)
        · have : (r + 1) * gdb.size ≤ src.length / gdb.size * gdb.size := Nat.mul_le_mul_right _ (by omega)
          rw [Nat.succ_mul] at this
          omega
        · intro g hg
          rw [p2] at hg
          obtain ⟨j, x, q1, q2, q3⟩ := field_some hg
          obtain ⟨g', q4, q5, -⟩ := G.live j x q1
          have : unit gdb x.2 = some g' := q4
          rw [q2] at this; cases this
          refine ⟨q5, ?_⟩
          rw [p1]
          obtain ⟨i, hi⟩ := List.mem_iff_getElem?.1 he
          exact hok f.fname f g (by unfold field; rw [getN_at L hi (lay_fname L hs he hf), Option.bind_some, hf]) hg
      · simp; omega
    obtain ⟨o, ho⟩ := hex
    rw [ho]
    refine ⟨o, rfl, ?_⟩
    rw [(owner_spec (all_in L hs hmt) _ _ _ _ ho).1]
    simp

/-- A table of a day and two counts of 2 bytes. -/
def oldDefs : List Def := [⟨some [0x74], some .date, 4, 1, false, 0, false⟩, ⟨some [0x6e], some .int, 2, 2, false, 0, false⟩, ⟨some [0x63], some .char, 3, 1, false, 0, false⟩]

/-- The same with three counts of 4 bytes before the text, which is longer, and a new field. -/
def newDefs : List Def := [⟨some [0x54], some .date, 4, 1, false, 0, false⟩, ⟨some [0x4e], some .int, 4, 3, false, 0, false⟩, ⟨some [0x78], some .uint, 1, 1, false, 0, false⟩, ⟨some [0x63], some .char, 5, 1, false, 0, false⟩]

example : ∃ gdb fdb, create oldDefs = some (some gdb) ∧ create newDefs = some (some fdb) ∧ Made gdb ∧ Made fdb ∧ Differ gdb fdb ∧
    convert ⟨0, 0⟩ (fun _ _ _ => 0) gdb fdb [1, 2, 3, 4, 0xfe, 0xff, 7, 0, 0x61, 0x62, 0x63] (List.replicate 22 9) =
      some (0, [1, 2, 3, 4, 0xfe, 0xff, 0xff, 0xff, 7, 0, 0, 0, 0, 0, 0, 0, 0, 0x61, 0x62, 0x63, 0, 0]) :=
  ⟨_, _, rfl, rfl, .create (ds := oldDefs) rfl (by decide), .create (ds := newDefs) rfl (by decide), .inl (by decide), by decide +kernel⟩

/-- C53 fails: the same two fields in the other order are taken for the same table, and each gets the value of the other. -/
theorem C53_order_violated : ∃ d d' gdb fdb f g, create [d, d'] = some (some gdb) ∧ create [d', d] = some (some fdb) ∧
    field gdb [0x61] = some g ∧ field fdb [0x61] = some f ∧
    ∃ out, convert ⟨0, 0⟩ (fun _ _ _ => 0) gdb fdb [1, 2] [0, 0] = some (0, out) ∧ slot 2 [1, 2] 0 g 0 = [1] ∧ slot 2 out 0 f 0 = [2] :=
  ⟨⟨some [0x61], some .int, 1, 1, false, 0, false⟩, ⟨some [0x62], some .int, 1, 1, false, 0, false⟩, _, _, _, _, rfl, rfl, rfl, rfl, [1, 2],
    by decide +kernel, rfl, rfl⟩

/-- C53 fails: a field the source does not have gets the bytes that are there. -/
theorem C53_new_violated : ∃ d d' gdb fdb f, create [d] = some (some gdb) ∧ create [d'] = some (some fdb) ∧
    field gdb [0x62] = none ∧ field fdb [0x62] = some f ∧
    ∃ out, convert ⟨0, 0⟩ (fun _ _ _ => 0) gdb fdb [5] [0] = some (0, out) ∧ slot 1 out 0 f 0 = [5] :=
  ⟨⟨some [0x61], some .int, 1, 1, false, 0, false⟩, ⟨some [0x62], some .int, 1, 1, false, 0, false⟩, _, _, _, rfl, rfl, rfl, rfl, [5],
    by decide +kernel, rfl⟩

/-- C53 fails: a field with a name of more than 31 bytes, the same in both tables, is lost. -/
theorem C53_name_violated : ∃ k d d' gdb fdb f g, create [d] = some (some gdb) ∧ create [d, d'] = some (some fdb) ∧
    field gdb k = some g ∧ field fdb k = some f ∧ g = f ∧
    ∃ out, convert ⟨0, 0⟩ (fun _ _ _ => 0) gdb fdb [5] [0, 0] = some (0, out) ∧ slot 2 out 0 f 0 = [0] :=
  ⟨List.replicate 32 0x61, ⟨some (List.replicate 32 0x61), some .int, 1, 1, false, 0, false⟩, ⟨some [0x62], some .int, 1, 1, false, 0, false⟩, _, _, _, _, rfl, rfl, rfl, rfl, rfl, [0, 0],
    by decide +kernel, rfl⟩

end Sis.Dyn
