import Verif.Sdb.CmdSteps
import Verif.Sdb.WriterSpec
/- The split of a block, in terms of its records. -/
namespace Sis.Sdb
open Sis Sis.Disk
open Sis.Dyn (sameN getN setN Db sameN_iff sameN_refl getN_none getN_some setN_spec getN_congr)

/-! ### Records -/

theorem records_length (size : Nat) : ∀ (n : Nat) (d : Bytes), (records size n d).length = n
  | 0, _ => rfl
  | n + 1, d => by simp [records, records_length size n]

theorem records_get (size : Nat) : ∀ (n : Nat) (d : Bytes) (i : Nat), i < n → (records size n d)[i]? = some ((d.drop (i * size)).take size)
  | 0, _, _, h => by omega
  | n + 1, d, 0, _ => by simp [records]
  | n + 1, d, i + 1, h => by
    rw [records, List.getElem?_cons_succ, records_get size n _ i (by omega), List.drop_drop, Nat.succ_mul, Nat.add_comm]

/-- A run of records in bytes. -/
theorem records_flatten (size : Nat) (hz : 0 < size) : ∀ (n : Nat) (d : Bytes), d.length = n * size → (records size n d).flatten = d ∧ ∀ r ∈ records size n d, r.length = size
  | 0, d, h => by
    have : d = [] := by simpa using h
    simp [records, this]
  | n + 1, d, h => by
    have h1 : (d.drop size).length = n * size := by rw [List.length_drop, h, Nat.succ_mul]; omega
    obtain ⟨a, b⟩ := records_flatten size hz n (d.drop size) h1
    refine ⟨?_, ?_⟩
    · rw [records, List.flatten_cons, a, List.take_append_drop]
    · intro r hr
      rcases List.mem_cons.1 hr with rfl | hr
      · rw [List.length_take, h, Nat.succ_mul]; omega
      · exact b r hr

theorem flatten_length (size : Nat) (xs : List Bytes) (h : ∀ r ∈ xs, r.length = size) : xs.flatten.length = xs.length * size := by
  induction xs with
  | nil => simp
  | cons x xs ih =>
    rw [List.flatten_cons, List.length_append, ih (fun r hr => h r (by simp [hr])), h x (by simp), List.length_cons, Nat.succ_mul, Nat.add_comm]

theorem records_of_flatten (size : Nat) (xs : List Bytes) (h : ∀ r ∈ xs, r.length = size) : records size xs.length xs.flatten = xs := by
  induction xs with
  | nil => rfl
  | cons x xs ih =>
    have hx := h x (by simp)
    rw [List.length_cons, records, List.flatten_cons]
    rw [← hx, List.take_left, List.drop_left, hx, ih (fun r hr => h r (by simp [hr]))]

/-- A table with a time. -/
structure Timed (db : Db) (f : Dyn.Field) : Prop where
  size : 0 < db.size
  small : db.size < 2 ^ 16
  field : timeField db = some f
  unit : (Dyn.unitOf f.style).isSome = true
  len : f.len = 1 ∨ f.len = 2 ∨ f.len = 4 ∨ f.len = 8
  fit : f.offset + f.len ≤ db.size

theorem getTime_rec {db : Db} {f : Dyn.Field} (h : Timed db f) {d : Bytes} (hw : d.length % db.size = 0) (hl : d.length < 2 ^ 31) {i : Nat} {r : Bytes}
    (hi : (recordsOf db d)[i]? = some r) : Dyn.getTime db i d = some (timeOf f r) := by
  have hn : i < d.length / db.size := by
    have := (List.getElem?_eq_some_iff.1 hi).1
    unfold recordsOf at this
    rwa [records_length] at this
  unfold recordsOf at hi
  rw [records_get _ _ _ _ hn] at hi
  have hi := Option.some.inj hi
  have hd : d.length = d.length / db.size * db.size := by
    have := Nat.div_add_mod d.length db.size
    rw [hw, Nat.add_zero, Nat.mul_comm] at this
    exact this.symm
  have h1 : (i + 1) * db.size ≤ d.length := by rw [hd]; exact Nat.mul_le_mul_right _ hn
  have hmul : (i + 1) * db.size = i * db.size + db.size := Nat.succ_mul _ _
  generalize hm : i * db.size = m at hi hmul
  unfold Dyn.getTime
  have hfield := h.field
  unfold timeField at hfield
  obtain ⟨a, ha, hu⟩ := Option.bind_eq_some_iff.1 hfield
  rw [ha]
  simp only
  rw [hmul, hm, if_neg (by rw [hw]; omega), hu]
  simp only [Option.bind_some]
  have hfit := h.fit
  rw [Nat.mod_eq_of_lt (by omega)]
  unfold Dyn.getUint
  have hint : Dyn.intLen f.len = true := by
    unfold Dyn.intLen
    rcases h.len with e | e | e | e <;> simp [e]
  rw [if_pos hint]
  unfold Dyn.elem
  rw [if_pos (by omega)]
  simp only [Option.map_some, Option.some.injEq, timeOf, ← hi]
  congr 1
  rw [Nat.zero_mul, Nat.add_zero, List.drop_take, List.take_take, List.drop_drop]
  congr 1
  omega

theorem dateOf_day {db : Db} {f : Dyn.Field} (h : Timed db f) (v : Time.Env) (t : Nat) : dateOf v db t = dayOf v f t := by
  have hfield := h.field
  unfold timeField at hfield
  obtain ⟨a, ha, hu⟩ := Option.bind_eq_some_iff.1 hfield
  unfold dateOf dayOf
  rw [ha]
  simp only [hu, Option.bind_some]
  have := h.unit
  cases hs : f.style <;> simp_all [Dyn.unitOf, Dyn.timeStyle]

theorem scale_timed {db : Db} {f : Dyn.Field} (h : Timed db f) : scale db = some (if f.style = .date then .year else .date) := by
  have hfield := h.field
  unfold timeField at hfield
  obtain ⟨a, ha, hu⟩ := Option.bind_eq_some_iff.1 hfield
  unfold scale
  rw [ha]
  simp [hu]

theorem recordsOf_flatten {db : Db} {xs : List Bytes} (hz : 0 < db.size) (h : ∀ r ∈ xs, r.length = db.size) : recordsOf db xs.flatten = xs := by
  unfold recordsOf
  rw [flatten_length db.size xs h, Nat.mul_div_cancel _ hz, records_of_flatten db.size xs h]

theorem blockTimes_rec {db : Db} {f : Dyn.Field} (h : Timed db f) {xs : List Bytes} (hx : ∀ r ∈ xs, r.length = db.size) (hl : xs.flatten.length < 2 ^ 31)
    {x y : Bytes} (h1 : xs.head? = some x) (h2 : xs.getLast? = some y) : blockTimes db xs.flatten = some (timeOf f x, timeOf f y) := by
  have hlen := flatten_length db.size xs hx
  have hne : xs ≠ [] := by rintro rfl; cases h1
  have hpos : 0 < xs.length := List.length_pos_iff.2 hne
  have hrec := recordsOf_flatten h.size hx
  have hw : xs.flatten.length % db.size = 0 := by rw [hlen]; exact Nat.mul_mod_left _ _
  unfold blockTimes
  have hdiv : xs.flatten.length / db.size = xs.length := by rw [hlen, Nat.mul_div_cancel _ h.size]
  rw [hdiv, if_neg (by omega)]
  rw [getTime_rec h hw hl (i := 0) (r := x) (by rw [hrec, ← List.head?_eq_getElem?]; exact h1)]
  simp only [Option.bind_some]
  rw [getTime_rec h hw hl (i := xs.length - 1) (r := y) (by rw [hrec, ← List.getLast?_eq_getElem?]; exact h2)]
  rfl

/-! ### Runs -/

/-- Runs of records of the same period, one of which is begun. -/
def runsFrom (q : Bytes → Nat) : Nat → List Bytes → List Bytes → List (Nat × List Bytes)
  | p, xs, [] => [(p, xs)]
  | p, xs, r :: rs => if q r = p then runsFrom q p (xs ++ [r]) rs else (p, xs) :: runsFrom q (q r) [r] rs

def piece (e : Nat × List Bytes) : Int × Bytes := ((e.1 : Int), e.2.flatten)

/-- The day of a record. -/
def day0 (v : Time.Env) (f : Dyn.Field) (r : Bytes) : Nat := (dayOf v f (timeOf f r)).getD 0

/-- The number of the period of a record. -/
def perOf (v : Time.Env) (f : Dyn.Field) (r : Bytes) : Nat := if f.style = .date then day0 v f r / 10000 else day0 v f r

theorem i32_eq {n : Nat} (h : n < 2 ^ 31) : i32 n = n := by
  unfold i32
  rw [Nat.mod_eq_of_lt (by omega), if_pos h]

theorem u64_eq {n : Nat} (h : n < 2 ^ 31) : Time.u64 (n : Int) = n := by
  unfold Time.u64
  omega

theorem u32_eq {n : Nat} (h : n < 2 ^ 31) : u32 (n : Int) = n := by
  unfold u32
  omega

theorem period_eq (n : Nat) (year : Bool) : period year (n : Int) = ((if year then n / 10000 else n : Nat) : Int) := by
  unfold period
  cases year
  · rfl
  · simp only [if_true]
    rw [Int.tdiv_eq_ediv_of_nonneg (by omega)]
    omega

theorem loop_runs {db : Db} {f : Dyn.Field} (h : Timed db f) (v : Time.Env) {d : Bytes} (hw : d.length % db.size = 0) (hl : d.length < 2 ^ 31)
    (hday : ∀ r ∈ recordsOf db d, timeOf f r < 2 ^ 31 ∧ ∃ n, dayOf v f (timeOf f r) = some n ∧ n < 10 ^ 8) :
    ∀ (left i : Nat) (now : Nat) («from» n : Nat), «from» + n = i → i + left = (recordsOf db d).length →
      splitLoop v (decide (f.style = .date)) db d left i now «from» n =
        some ((runsFrom (perOf v f) (if f.style = .date then now / 10000 else now) (((recordsOf db d).drop «from»).take n) ((recordsOf db d).drop i)).map piece) := by
  have hR : (recordsOf db d).flatten = d ∧ ∀ r ∈ recordsOf db d, r.length = db.size :=
    records_flatten db.size h.size _ d (by
      have := Nat.div_add_mod d.length db.size
      rw [hw, Nat.add_zero, Nat.mul_comm] at this
      exact this.symm)
  have hpart : ∀ a n, (d.drop (a * db.size)).take (n * db.size) = (((recordsOf db d).drop a).take n).flatten := by
    have hdrop : ∀ (a : Nat) (xs : List Bytes), (∀ r ∈ xs, r.length = db.size) → xs.flatten.drop (a * db.size) = (xs.drop a).flatten := by
      intro a
      induction a with
      | zero => intro xs _; simp
      | succ a ih =>
        intro xs hx
        cases xs with
        | nil => simp
        | cons x xs =>
          rw [List.drop_succ_cons, ← ih xs (fun r hr => hx r (by simp [hr])), List.flatten_cons, Nat.succ_mul, Nat.add_comm, ← List.drop_drop,
            ← hx x (by simp), List.drop_left]
    have htake : ∀ (a : Nat) (xs : List Bytes), (∀ r ∈ xs, r.length = db.size) → xs.flatten.take (a * db.size) = (xs.take a).flatten := by
      intro a
      induction a with
      | zero => intro xs _; simp
      | succ a ih =>
        intro xs hx
        cases xs with
        | nil => simp
        | cons x xs =>
          have hx' := hx x (by simp)
          rw [List.take_succ_cons, List.flatten_cons, List.flatten_cons, ← ih xs (fun r hr => hx r (by simp [hr])), Nat.succ_mul, Nat.add_comm,
            ← hx', List.take_length_add_append]
    intro a n
    have e := hdrop a (recordsOf db d) hR.2
    rw [hR.1] at e
    rw [e]
    exact htake n _ (fun r hr => hR.2 r (List.mem_of_mem_drop hr))
  intro left
  induction left with
  | zero =>
    intro i now a n hi hN
    have : (recordsOf db d).drop i = [] := by rw [List.drop_eq_nil_iff]; omega
    unfold splitLoop
    rw [this, runsFrom, List.map_singleton, hpart, period_eq]
    simp [piece]
  | succ left ih =>
    intro i now a n hi hN
    have hir : i < (recordsOf db d).length := by omega
    obtain ⟨r, hr⟩ : ∃ r, (recordsOf db d)[i]? = some r := ⟨_, List.getElem?_eq_getElem hir⟩
    obtain ⟨ht, m, hm, hm8⟩ := hday r (List.mem_of_getElem? hr)
    have hdrop : (recordsOf db d).drop i = r :: (recordsOf db d).drop (i + 1) := by
      rw [← (List.getElem?_eq_some_iff.1 hr).2, List.drop_eq_getElem_cons hir]
    have hper : perOf v f r = if f.style = .date then m / 10000 else m := by unfold perOf day0; rw [hm]; rfl
    unfold splitLoop
    rw [getTime_rec h hw hl hr]
    simp only [Option.bind_some]
    rw [i32_eq ht, u64_eq ht, dateOf_day h, hm]
    simp only [Option.bind_some]
    rw [i32_eq (by omega), period_eq, period_eq, hdrop, runsFrom, hper]
    have hiff : (((if decide (f.style = Dyn.St.date) = true then m / 10000 else m : Nat) : Int) = ((if decide (f.style = Dyn.St.date) = true then now / 10000 else now : Nat) : Int)) ↔
        ((if f.style = .date then m / 10000 else m) = if f.style = .date then now / 10000 else now) := by
      simp only [decide_eq_true_eq]
      norm_cast
    by_cases he : (if f.style = .date then m / 10000 else m) = if f.style = .date then now / 10000 else now
    · rw [if_pos (hiff.2 he), if_pos he, ih (i + 1) now a (n + 1) (by omega) (by omega)]
      congr 4
      rw [List.take_add_one, List.getElem?_drop, hi, hr]
      rfl
    · rw [if_neg (fun hx => he (hiff.1 hx)), if_neg he, ih (i + 1) m i 1 (by omega) (by omega), hpart]
      have h1 : ((recordsOf db d).drop i).take 1 = [r] := by rw [hdrop]; rfl
      rw [h1]
      simp [piece, decide_eq_true_eq]

/-- The pieces of a block. -/
theorem split_runs {db : Db} {f : Dyn.Field} (h : Timed db f) (v : Time.Env) {d : Bytes} (hne : d ≠ []) (hw : d.length % db.size = 0) (hl : d.length < 2 ^ 31)
    (hday : ∀ r ∈ recordsOf db d, ∃ n, dayOf v f (timeOf f r) = some n ∧ n < 10 ^ 8)
    (hfit : (∀ r ∈ recordsOf db d, timeOf f r < 2 ^ 31) ∨ ∀ r ∈ recordsOf db d, ∀ r' ∈ recordsOf db d, placeOf v f r = placeOf v f r')
    (hord : (recordsOf db d).Pairwise fun x y => ∀ m n, dayOf v f (timeOf f x) = some m → dayOf v f (timeOf f y) = some n → m ≤ n) :
    ∃ r rs, recordsOf db d = r :: rs ∧ split v (decide (f.style = .date)) db d = some ((runsFrom (perOf v f) (perOf v f r) [r] rs).map piece) := by
  have hmul : d.length / db.size * db.size = d.length := by
    have := Nat.div_add_mod d.length db.size
    rw [hw, Nat.add_zero, Nat.mul_comm] at this
    exact this
  have hR : (recordsOf db d).flatten = d ∧ ∀ r ∈ recordsOf db d, r.length = db.size :=
    records_flatten db.size h.size _ d hmul.symm
  have hN : (recordsOf db d).length = d.length / db.size := records_length _ _ _
  have hpos : d.length / db.size ≠ 0 := by
    intro hx
    rw [hx, Nat.zero_mul] at hmul
    exact hne (List.length_eq_zero_iff.1 hmul.symm)
  obtain ⟨r, rs, hrs⟩ : ∃ r rs, recordsOf db d = r :: rs := by
    cases hc : recordsOf db d with
    | nil => rw [hc] at hN; simp at hN; omega
    | cons r rs => exact ⟨r, rs, rfl⟩
  refine ⟨r, rs, hrs, ?_⟩
  obtain ⟨z, hz⟩ : ∃ z, (recordsOf db d)[d.length / db.size - 1]? = some z := ⟨_, List.getElem?_eq_getElem (by omega)⟩
  have h0 : (recordsOf db d)[0]? = some r := by rw [hrs]; rfl
  have hrm := List.mem_of_getElem? h0
  have hzm := List.mem_of_getElem? hz
  obtain ⟨a, ha, ha8⟩ := hday r hrm
  obtain ⟨b, hb, hb8⟩ := hday z hzm
  have hpr : perOf v f r = if f.style = .date then a / 10000 else a := by unfold perOf day0; rw [ha]; rfl
  have hpz : perOf v f z = if f.style = .date then b / 10000 else b := by unfold perOf day0; rw [hb]; rfl
  unfold split
  rw [if_neg (by have := h.size; omega), getTime_rec h hw hl h0]
  simp only [Option.bind_some]
  rw [dateOf_day h, ha]
  simp only [Option.bind_some]
  rw [getTime_rec h hw hl hz]
  simp only [Option.bind_some]
  rw [dateOf_day h, hb]
  simp only [Option.bind_some]
  rw [i32_eq (n := a) (by omega), i32_eq (n := b) (by omega), period_eq, period_eq]
  -- the run of a block that is all of one period
  have hone : ∀ (p : Nat) (ys xs : List Bytes), (∀ y ∈ ys, perOf v f y = p) → runsFrom (perOf v f) p xs ys = [(p, xs ++ ys)] := by
    intro p ys
    induction ys with
    | nil => intro xs _; simp [runsFrom]
    | cons y ys ih =>
      intro xs hy
      rw [runsFrom, if_pos (hy y (by simp)), ih _ (fun x hx => hy x (by simp [hx])), List.append_assoc]
      rfl
  have hplace : ∀ x ∈ recordsOf db d, ∃ n, dayOf v f (timeOf f x) = some n ∧ perOf v f x = (if f.style = .date then n / 10000 else n) := by
    intro x hx
    obtain ⟨n, hn, _⟩ := hday x hx
    exact ⟨n, hn, by unfold perOf day0; rw [hn]; rfl⟩
  have hcond : (if decide (f.style = Dyn.St.date) = true then (((if true = true then a / 10000 else a : Nat) : Int) = ((if true = true then b / 10000 else b : Nat) : Int)) else a = b) ↔
      perOf v f r = perOf v f z := by
    rw [hpr, hpz]
    by_cases hs : f.style = .date
    · simp only [hs, decide_true, if_true]; norm_cast
    · simp [hs]
  by_cases hsame : perOf v f r = perOf v f z
  · rw [if_pos (hcond.2 hsame)]
    have hall : ∀ y ∈ rs, perOf v f y = perOf v f r := by
      intro y hy
      have hym : y ∈ recordsOf db d := by rw [hrs]; simp [hy]
      obtain ⟨n, hn, hpn⟩ := hplace y hym
      have h1 : a ≤ n := by
        have := hord
        rw [hrs] at this
        exact (List.pairwise_cons.1 this).1 y hy a n ha hn
      have h2 : n ≤ b := by
        by_cases hyz : y = z
        · rw [hyz, hb] at hn; cases hn; omega
        · obtain ⟨j, hj⟩ := List.mem_iff_getElem?.1 hym
          have hjl := (List.getElem?_eq_some_iff.1 hj).1
          have hjne : j ≠ d.length / db.size - 1 := by rintro rfl; rw [hz] at hj; cases hj; exact hyz rfl
          rw [List.pairwise_iff_getElem] at hord
          have := hord j (d.length / db.size - 1) hjl (by omega) (by omega)
          rw [(List.getElem?_eq_some_iff.1 hj).2, (List.getElem?_eq_some_iff.1 hz).2] at this
          exact this n b hn hb
      rw [hpn, hpr]
      rw [hpr, hpz] at hsame
      split at hsame
      · rename_i hs
        rw [if_pos hs, if_pos hs]
        have := Nat.div_le_div_right (c := 10000) h1
        have := Nat.div_le_div_right (c := 10000) h2
        omega
      · rename_i hs
        rw [if_neg hs, if_neg hs]
        omega
    rw [hone _ rs [r] hall]
    have hflat : ([r] ++ rs).flatten = d := by rw [← hR.1, hrs]; rfl
    rw [List.map_singleton, piece, hflat, hpr]
    rw [period_eq]
    by_cases hs : f.style = .date <;> simp [hs]
  · rw [if_neg (fun hx => hsame (hcond.1 hx))]
    have hfits : ∀ x ∈ recordsOf db d, timeOf f x < 2 ^ 31 := by
      rcases hfit with hfit | hfit
      · exact hfit
      · exfalso
        apply hsame
        have := hfit r hrm z hzm
        unfold placeOf at this
        rw [ha, hb] at this
        simp only [Option.map_some, Option.some.injEq] at this
        rw [hpr, hpz]
        split at this
        · rename_i hs; rw [if_pos hs, if_pos hs]; exact Uid.year.inj this
        · rename_i hs; rw [if_neg hs, if_neg hs]; exact Uid.date.inj this
    rw [loop_runs h v hw hl (fun x hx => ⟨hfits x hx, hday x hx⟩) (d.length / db.size - 1) 1 a 0 1 rfl (by omega)]
    rw [hrs, ← hpr]
    rfl

end Sis.Sdb
