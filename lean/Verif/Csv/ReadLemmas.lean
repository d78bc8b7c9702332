import Verif.Csv.CsvSpec
import Verif.Memory.QueueTheorems
import Verif.Sdb.Refine
/-
Helper facts: the lines of a file, whatever the pieces it is read in, and the columns of a line.
-/
namespace Sis.Csv
open Sis
open Sis.Mem (Inv)

theorem split_at {d : UInt8} {a a' b b' : Bytes} (ha : d ∉ a) (ha' : d ∉ a') (h : a ++ d :: b = a' ++ d :: b') : a = a' ∧ b = b' := by
  induction a generalizing a' with
  | nil =>
    cases a' with
    | nil => simp at h; exact ⟨rfl, h⟩
    | cons c a' =>
      simp only [List.nil_append, List.cons_append, List.cons.injEq] at h
      rw [← h.1] at ha'
      simp at ha'
  | cons c a ih =>
    cases a' with
    | nil =>
      simp only [List.nil_append, List.cons_append, List.cons.injEq] at h
      rw [h.1] at ha
      simp at ha
    | cons c' a' =>
      simp only [List.cons_append, List.cons.injEq] at h
      obtain ⟨h1, h2⟩ := ih (a' := a') (fun hx => ha (by simp [hx])) (fun hx => ha' (by simp [hx])) h.2
      exact ⟨by rw [h.1, h1], h2⟩

/-- Lines with a line feed behind each. -/
def feed (ls : List Bytes) : Bytes := ls.flatMap (· ++ [10])

theorem feed_cons (l : Bytes) (ls : List Bytes) : feed (l :: ls) = l ++ 10 :: feed ls := by simp [feed]

theorem feed_append (a b : List Bytes) : feed (a ++ b) = feed a ++ feed b := by simp [feed]

/-- Every text is a list of lines and a rest. -/
theorem lines_of (u : Bytes) : ∃ ls t, u = feed ls ++ t ∧ (∀ l ∈ ls, (10 : UInt8) ∉ l) ∧ (10 : UInt8) ∉ t := by
  induction u with
  | nil => exact ⟨[], [], rfl, by simp, by simp⟩
  | cons c u ih =>
    obtain ⟨ls, t, h1, h2, h3⟩ := ih
    by_cases hc : c = 10
    · subst hc
      exact ⟨[] :: ls, t, by rw [feed_cons, h1]; rfl, by simpa using h2, h3⟩
    · cases ls with
      | nil => exact ⟨[], c :: t, by rw [h1]; rfl, by simp, by simp [Ne.symm hc, h3]⟩
      | cons l ls =>
        refine ⟨(c :: l) :: ls, t, by rw [h1, feed_cons, feed_cons]; rfl, ?_, h3⟩
        intro x hx
        rcases List.mem_cons.1 hx with rfl | hx
        · simp [Ne.symm hc, h2 l (by simp)]
        · exact h2 x (by simp [hx])

theorem lines_prefix {ls₁ : List Bytes} {x : Bytes} : ∀ {ls : List Bytes} {t : Bytes}, (∀ l ∈ ls₁, (10 : UInt8) ∉ l) → (∀ l ∈ ls, (10 : UInt8) ∉ l) →
    (10 : UInt8) ∉ t → feed ls₁ ++ x = feed ls ++ t → ∃ ls₂, ls = ls₁ ++ ls₂ ∧ x = feed ls₂ ++ t := by
  induction ls₁ with
  | nil => intro ls t _ _ _ h; exact ⟨ls, rfl, h⟩
  | cons l₁ ls₁ ih =>
    intro ls t h1 h2 h3 h
    cases ls with
    | nil =>
      exfalso
      apply h3
      have : t = feed (l₁ :: ls₁) ++ x := by rw [h]; rfl
      rw [this, feed_cons]
      simp
    | cons l ls =>
      rw [feed_cons, feed_cons, List.append_assoc, List.append_assoc, List.cons_append, List.cons_append] at h
      obtain ⟨e1, e2⟩ := split_at (h1 l₁ (by simp)) (h2 l (by simp)) h
      obtain ⟨ls₂, e3, e4⟩ := ih (fun l hl => h1 l (by simp [hl])) (fun l hl => h2 l (by simp [hl])) h3 e2
      exact ⟨ls₂, by rw [e1, e3]; rfl, e4⟩

theorem unread_get {m : Mem} {i : Nat} (hi : m.offset + i < m.size) : m.unread[i]? = m.buf[m.offset + i]? := by
  rw [Mem.unread, List.getElem?_drop, List.getElem?_take, if_pos hi]

theorem signFrom_found {m : Mem} (h : Inv m) {r : Bytes} : ∀ (l : Bytes) (todo len : Nat), m.offset + len + todo + 1 = m.size →
    m.unread.drop len = l ++ 10 :: r → (10 : UInt8) ∉ l → signFrom m.buf m.offset todo len = some (len + l.length + 1) := by
  intro l
  induction l with
  | nil =>
    intro todo len hs hd _
    have : m.buf[m.offset + len]? = some 10 := by
      rw [← unread_get (by omega)]
      have := congrArg (·[0]?) hd
      simpa using this
    unfold signFrom
    simp [this]
  | cons c l ih =>
    intro todo len hs hd hn
    have hc : m.buf[m.offset + len]? = some c := by
      rw [← unread_get (by omega)]
      have := congrArg (·[0]?) hd
      simpa using this
    have hc10 : c ≠ 10 := fun he => hn (by simp [he])
    have hd' : m.unread.drop (len + 1) = l ++ 10 :: r := by
      have := congrArg (List.drop 1) hd
      simpa using this
    have hl := Mem.unread_length m h
    cases todo with
    | zero =>
      have := congrArg List.length hd'
      simp only [List.length_drop, hl, List.length_append, List.length_cons] at this
      omega
    | succ todo =>
      unfold signFrom
      simp only [hc, if_neg hc10]
      rw [ih todo (len + 1) (by omega) hd' (fun hx => hn (by simp [hx]))]
      simp; omega

theorem signFrom_none {m : Mem} (h : Inv m) : ∀ (todo len : Nat), m.offset + len + todo + 1 = m.size →
    (10 : UInt8) ∉ m.unread.drop len → signFrom m.buf m.offset todo len = some 0 := by
  intro todo
  have hl := Mem.unread_length m h
  induction todo with
  | zero =>
    intro len hs hn
    have hlt : len < m.unread.length := by omega
    have hc : m.buf[m.offset + len]? = some m.unread[len] := by
      rw [← unread_get (by omega), List.getElem?_eq_getElem hlt]
    rw [List.drop_eq_getElem_cons hlt] at hn
    have hc10 : m.unread[len] ≠ 10 := fun he => hn (by simp [he])
    unfold signFrom
    simp only [hc, if_neg hc10]
  | succ todo ih =>
    intro len hs hn
    have hlt : len < m.unread.length := by omega
    have hc : m.buf[m.offset + len]? = some m.unread[len] := by
      rw [← unread_get (by omega), List.getElem?_eq_getElem hlt]
    rw [List.drop_eq_getElem_cons hlt] at hn
    have hc10 : m.unread[len] ≠ 10 := fun he => hn (by simp [he])
    unfold signFrom
    simp only [hc, if_neg hc10]
    exact ih (len + 1) (by omega) (fun hx => hn (List.mem_cons_of_mem _ hx))

theorem lineSign_found {m : Mem} (h : Inv m) {l r : Bytes} (hu : m.unread = l ++ 10 :: r) (hn : (10 : UInt8) ∉ l) :
    lineSign m = some (l.length + 1) := by
  have hl := Mem.unread_length m h
  have h1 := h.1
  have : m.offset ≠ m.size := by
    intro he
    rw [hu] at hl
    simp at hl
    omega
  rw [lineSign, if_neg this, signFrom_found h l _ 0 (by omega) (by simpa using hu) hn]
  simp

theorem lineSign_none {m : Mem} (h : Inv m) (hn : (10 : UInt8) ∉ m.unread) : lineSign m = some 0 := by
  have h1 := h.1
  by_cases he : m.offset = m.size
  · rw [lineSign, if_pos he]
  · rw [lineSign, if_neg he, signFrom_none h _ 0 (by omega) (by simpa using hn)]

theorem load_line {m : Mem} (h : Inv m) {l r : Bytes} (hu : m.unread = l ++ r) : Mem.load m.buf m.offset l.length = some l := by
  have hl := Mem.unread_length m h
  have h1 := h.1
  have h2 : m.size ≤ m.buf.length := h.2
  rw [hu, List.length_append] at hl
  rw [Mem.load, if_pos (by omega)]
  congr 1
  have : (m.buf.drop m.offset).take l.length = m.unread.take l.length := by
    rw [Mem.unread, List.drop_take, List.take_take, Nat.min_eq_left (by omega)]
  rw [this, hu, List.take_left]

theorem takeLines_spec {t : Bytes} (ht : (10 : UInt8) ∉ t) : ∀ (ls : List Bytes) (k : Nat) (m : Mem), Inv m → m.unread = feed ls ++ t →
    (∀ l ∈ ls, (10 : UInt8) ∉ l) → ls.length < k →
    ∃ m', takeLines k m = some (ls.map (· ++ [10]), m') ∧ Inv m' ∧ m'.unread = t := by
  intro ls
  induction ls with
  | nil =>
    intro k m hm hu _ hk
    obtain ⟨k, rfl⟩ : ∃ j, k = j + 1 := ⟨k - 1, by simp at hk; omega⟩
    have hu' : m.unread = t := by rw [hu]; rfl
    refine ⟨m, ?_, hm, hu'⟩
    rw [takeLines, lineSign_none hm (by rw [hu']; exact ht)]
    rfl
  | cons l ls ih =>
    intro k m hm hu hls hk
    obtain ⟨k, rfl⟩ : ∃ j, k = j + 1 := ⟨k - 1, by simp at hk; omega⟩
    rw [feed_cons, List.append_assoc, List.cons_append] at hu
    have hload := load_line hm (l := l ++ [10]) (r := feed ls ++ t) (by simpa using hu)
    rw [List.length_append, List.length_singleton] at hload
    obtain ⟨hi, hv⟩ := Mem.move_spec m hm (l.length + 1)
    have hv' : (m.move (l.length + 1)).unread = feed ls ++ t := by
      rw [hv, hu]
      have : l ++ 10 :: (feed ls ++ t) = (l ++ [10]) ++ (feed ls ++ t) := by simp
      rw [this]
      exact List.drop_left' (by simp)
    obtain ⟨m', h1, h2, h3⟩ := ih k _ hi hv' (fun l hl => hls l (by simp [hl])) (by simp at hk; omega)
    refine ⟨m', ?_, h2, h3⟩
    rw [takeLines, lineSign_found hm hu (hls l (by simp))]
    simp [hload, h1]

theorem feed_length (ls : List Bytes) : ls.length ≤ (feed ls).length := by
  induction ls with
  | nil => simp
  | cons l ls ih => rw [feed_cons]; simp; omega

/-- The lines of a file do not depend on the pieces it is read in. -/
theorem readLines_spec (junk : UInt8) {t : Bytes} (ht : (10 : UInt8) ∉ t) : ∀ (reads : List Bytes) (m : Mem) (ls : List Bytes), Inv m →
    (∀ b ∈ reads, b ≠ []) → (10 : UInt8) ∉ m.unread → m.unread ++ reads.flatten = feed ls ++ t → (∀ l ∈ ls, (10 : UInt8) ∉ l) →
    readLines junk reads m = some (ls.map (· ++ [10])) := by
  intro reads
  induction reads with
  | nil =>
    intro m ls _ _ hn hu _
    simp only [List.flatten_nil, List.append_nil] at hu
    cases ls with
    | nil => rfl
    | cons l ls =>
      exfalso
      apply hn
      rw [hu, feed_cons]
      simp
  | cons b reads ih =>
    intro m ls hm hb hn hu hls
    obtain ⟨m1, h1, h2, h3⟩ := Mem.read_spec junk m hm b
    obtain ⟨ls₁, t₁, e1, e2, e3⟩ := lines_of m1.unread
    have hk : ls₁.length < m1.getSize + 1 := by
      have := Mem.unread_length m1 h2
      have h4 := feed_length ls₁
      rw [e1, List.length_append] at this
      rw [Mem.getSize]; omega
    obtain ⟨m2, g1, g2, g3⟩ := takeLines_spec e3 ls₁ _ m1 h2 e1 e2 hk
    have hu2 : feed ls₁ ++ (t₁ ++ reads.flatten) = feed ls ++ t := by
      rw [← List.append_assoc, ← e1, h3, ← hu]
      simp
    obtain ⟨ls₂, f1, f2⟩ := lines_prefix e2 hls ht hu2
    rw [readLines, if_neg (hb b (by simp)), h1]
    simp only [Option.bind_eq_bind, Option.bind_some, g1]
    rw [ih m2 ls₂ g2 (fun b hb' => hb b (by simp [hb'])) (by rw [g3]; exact e3) (by rw [g3]; exact f2)
      (fun l hl => hls l (by rw [f1]; simp [hl])), f1]
    simp

theorem file_lines (junk : UInt8) {reads ls : List Bytes} {t : Bytes} (hr : ∀ b ∈ reads, b ≠ []) (hf : reads.flatten = feed ls ++ t)
    (hl : ∀ l ∈ ls, (10 : UInt8) ∉ l) (ht : (10 : UInt8) ∉ t) : readLines junk reads (Mem.create junk) = some (ls.map (· ++ [10])) := by
  have hu : (Mem.create junk).unread = [] := rfl
  apply readLines_spec junk ht reads _ ls ⟨Nat.le_refl _, Nat.zero_le _⟩ hr
  · simp [hu]
  · rw [hu]; exact hf
  · exact hl

/-! ### The columns of a line -/

theorem pieces_run (sign : UInt8) (x : Bytes) : ∀ (a acc : Bytes), sign ∉ a → pieces sign acc (a ++ x) = pieces sign (a.reverse ++ acc) x := by
  intro a
  induction a with
  | nil => intro acc _; rfl
  | cons c a ih =>
    intro acc h
    rw [List.cons_append, pieces, if_neg (fun he => h (by simp [he])), ih _ (fun hx => h (by simp [hx]))]
    simp

theorem pieces_join {sign : UInt8} {eol : Bytes} (he : sign ∉ eol) (hne : eol ≠ []) : ∀ (r : List Bytes), (∀ c ∈ r, sign ∉ c) →
    pieces sign [] (join sign r ++ eol) = ended eol r := by
  intro r
  induction r with
  | nil =>
    intro _
    have := pieces_run sign [] eol [] he
    simp only [List.append_nil] at this
    simp [join, ended, this, pieces, hne]
  | cons a l ih =>
    intro h
    cases l with
    | nil =>
      have := pieces_run sign [] (a ++ eol) [] (by simp [h a (by simp), he])
      simp only [List.append_nil] at this
      simp [join, ended, this, pieces, hne]
    | cons b l =>
      rw [join, ended, List.append_assoc, pieces_run sign _ a [] (h a (by simp)), List.cons_append, pieces, if_pos rfl,
        ih (fun c hc => h c (by simp [hc]))]
      · simp
      · nofun
      · nofun

theorem trim_end {s w : Bytes} (hw : ∀ c ∈ w, c ≤ 32) : Sdb.trim (s ++ w) = Sdb.trim s := by
  unfold Sdb.trim
  rw [List.reverse_append, List.dropWhile_append_of_pos]
  intro c hc
  have := hw c (List.mem_reverse.1 hc)
  simpa using this

theorem cstr_self {s : Bytes} (h : ∀ c ∈ s, c ≠ 0) : Json.cstrOf s = s := by
  unfold Json.cstrOf
  have := List.takeWhile_append_of_pos (p := (· != 0)) (l₁ := s) (l₂ := []) fun c hc => by simpa using h c hc
  simpa using this

theorem eol_facts {eol : Bytes} (h : Eol eol) : (∀ c ∈ eol, c ≤ 32 ∧ c ≠ 0) ∧ eol ≠ [] := by
  rcases h with rfl | rfl <;> decide

theorem clean_load {sign : UInt8} {s w : Bytes} (h : Clean sign s) (hw : ∀ c ∈ w, c ≤ 32 ∧ c ≠ 0) : Sdb.trim (Json.cstrOf (s ++ w)) = s := by
  rw [cstr_self, trim_end fun c hc => (hw c hc).1, Sdb.trim_self h.first h.last]
  intro c hc
  rcases List.mem_append.1 hc with hc | hc
  · exact (h.plain c hc).1
  · exact (hw c hc).2

theorem ended_load {sign : UInt8} {eol : Bytes} (he : Eol eol) : ∀ (r : List Bytes), r ≠ [] → (∀ c ∈ r, Clean sign c) →
    (ended eol r).map (fun p => Sdb.trim (Json.cstrOf p)) = r := by
  intro r
  induction r with
  | nil => intro h; exact absurd rfl h
  | cons a l ih =>
    intro _ h
    cases l with
    | nil => simp only [ended, List.map_cons, List.map_nil, clean_load (h a (by simp)) (eol_facts he).1]
    | cons b l =>
      rw [ended, List.map_cons, ih (by simp) (fun c hc => h c (by simp [hc]))]
      · have := clean_load (h a (by simp)) (w := []) (by simp)
        rw [List.append_nil] at this
        rw [this]
      · nofun

theorem loadList_row {sign : UInt8} {eol : Bytes} (he : Eol eol) (hs : sign ∉ eol) {r : List Bytes} (hr : r ≠ []) (hc : ∀ c ∈ r, Clean sign c) :
    loadList sign (join sign r ++ eol) = r := by
  rw [loadList, pieces_join hs (eol_facts he).2 r (fun c hc' hx => ((hc c hc').plain _ hx).2.2 rfl), ended_load he r hr hc]

theorem cut_run (sign : UInt8) (x : Bytes) (left : Nat) : ∀ (a acc : Bytes), sign ∉ a → cut sign (left + 1) acc (a ++ x) = cut sign (left + 1) (acc ++ a) x := by
  intro a
  induction a with
  | nil => intro acc _; simp
  | cons c a ih =>
    intro acc h
    rw [List.cons_append, cut, if_neg (fun he => h (by simp [he])), ih _ (fun hx => h (by simp [hx]))]
    simp

theorem cut_join {sign : UInt8} {eol : Bytes} (he : sign ∉ eol) : ∀ (r : List Bytes), r ≠ [] → (∀ c ∈ r, sign ∉ c) →
    cut sign r.length [] (join sign r ++ eol) = ended eol r := by
  intro r
  induction r with
  | nil => intro h; exact absurd rfl h
  | cons a l ih =>
    intro _ h
    cases l with
    | nil =>
      have := cut_run sign [] 0 (a ++ eol) [] (by simp [h a (by simp), he])
      simp only [List.append_nil] at this
      simp [join, ended, this, cut]
    | cons b l =>
      have hih := ih (by simp) (fun c hc => h c (by simp [hc]))
      rw [join, ended, List.append_assoc, List.length_cons, cut_run sign _ _ a [] (h a (by simp)), List.cons_append, cut, if_pos rfl, hih]
      · simp
      · nofun
      · nofun

theorem nums_join {sign : UInt8} {eol : Bytes} (he : sign ∉ eol) (hne : eol ≠ []) : ∀ (r : List Bytes), r ≠ [] → (∀ c ∈ r, sign ∉ c) →
    nums (join sign r ++ eol) sign = r.length := by
  intro r hr h
  have hlast : (join sign r ++ eol).getLast? ≠ some sign := by
    rw [List.getLast?_append]
    cases hg : eol.getLast? with
    | none => exact absurd (List.getLast?_eq_none_iff.1 hg) hne
    | some x =>
      intro hx
      have : x = sign := by simpa using hx
      exact he (this ▸ List.mem_of_getLast? hg)
  have hc : (join sign r).count sign + 1 = r.length := by
    clear hlast
    induction r with
    | nil => exact absurd rfl hr
    | cons a l ih =>
      have ha := List.count_eq_zero_of_not_mem (h a (by simp))
      cases l with
      | nil => simp [join, ha]
      | cons b l =>
        have := ih (by simp) (fun c hc => h c (by simp [hc]))
        rw [join, List.count_append, List.count_cons_self, ha]
        · simp only [List.length_cons] at this ⊢; omega
        · nofun
  rw [nums, List.count_append, List.count_eq_zero_of_not_mem he, if_pos ⟨by simp [hne], hlast⟩]
  omega

theorem join_no {sign x : UInt8} (hx : x ≠ sign) : ∀ (r : List Bytes), (∀ c ∈ r, x ∉ c) → x ∉ join sign r := by
  intro r
  induction r with
  | nil => intro _; simp [join]
  | cons a l ih =>
    intro h
    cases l with
    | nil => simpa [join] using h a (by simp)
    | cons b l =>
      have := ih (fun c hc => h c (by simp [hc]))
      rw [join]
      · simp [h a (by simp), hx, this]
      · nofun

/-- The lines of a text without their line feeds. -/
theorem text_feed {sign : UInt8} {eol : Bytes} (he : Eol eol) (hs : sign ≠ 10) {rows : List (List Bytes)} (h : ∀ r ∈ rows, ∀ c ∈ r, (10 : UInt8) ∉ c) :
    ∃ ls : List Bytes, textOf sign eol rows = feed ls ∧ (∀ l ∈ ls, (10 : UInt8) ∉ l) ∧ ls.map (· ++ [10]) = rows.map fun r => join sign r ++ eol := by
  obtain ⟨w, hw, hw10⟩ : ∃ w : Bytes, eol = w ++ [10] ∧ (10 : UInt8) ∉ w := by
    rcases he with rfl | rfl
    · exact ⟨[], rfl, by simp⟩
    · exact ⟨[13], rfl, by decide⟩
  refine ⟨rows.map fun r => join sign r ++ w, ?_, ?_, ?_⟩
  · simp [textOf, feed, List.flatMap_map, hw]
  · intro l hl
    obtain ⟨r, hr, rfl⟩ := List.mem_map.1 hl
    simp [join_no (Ne.symm hs) r (h r hr), hw10]
  · simp [hw]

/-! ### The file in memory -/

theorem addLines {sign : UInt8} {eol : Bytes} (he : Eol eol) (hs : sign ∉ eol) : ∀ (rows : List (List Bytes)) (o : File),
    (∀ r ∈ rows, r ≠ [] ∧ ∀ c ∈ r, Clean sign c) → 0 < o.head.length →
    (rows.map fun r => join sign r ++ eol).foldl (addLine sign) o = ⟨o.head, o.list ++ rows⟩ := by
  intro rows
  induction rows with
  | nil => intro o _ _; simp
  | cons r rows ih =>
    intro o h ho
    obtain ⟨h1, h2⟩ := h r (by simp)
    have hr : 0 < r.length := List.length_pos_iff.2 h1
    rw [List.map_cons, List.foldl_cons]
    have : addLine sign o (join sign r ++ eol) = ⟨o.head, o.list ++ [r]⟩ := by
      simp only [addLine, loadList_row he hs h1 h2, if_pos hr, if_neg (by omega : ¬ o.head.length = 0)]
    rw [this, ih ⟨o.head, o.list ++ [r]⟩ (fun r hr => h r (by simp [hr])) ho]
    simp

/-- The columns of the names. -/
def headOf (hs : List Bytes) : List (Bytes × Nat) := hs.zipIdx.foldl (fun h e => (Dyn.setN h e.1 e.2).1) []

theorem setN_pos {α : Type} (l : List (Bytes × α)) (k : Bytes) (v : α) : 0 < (Dyn.setN l k v).1.length := by
  cases l with
  | nil => simp [Dyn.setN]
  | cons e l => rw [Dyn.setN]; split <;> simp

theorem fold_pos (l : List (Bytes × Nat)) : ∀ h : List (Bytes × Nat), (l ≠ [] ∨ 0 < h.length) →
    0 < (l.foldl (fun h e => (Dyn.setN h e.1 e.2).1) h).length := by
  induction l with
  | nil => intro h hh; simpa using hh
  | cons e l ih => intro h _; exact ih _ (.inr (setN_pos _ _ _))

theorem open_rows (junk c : UInt8) {sign : UInt8} (hsign : sign = if c = 0 then 44 else c) {eol : Bytes} (he : Eol eol) (hs : sign ∉ eol)
    {hd : List Bytes} {rows : List (List Bytes)} {t : Bytes} (h : ∀ r ∈ hd :: rows, r ≠ [] ∧ ∀ c ∈ r, Clean sign c) (ht : (10 : UInt8) ∉ t)
    {reads : List Bytes} (hr : ∀ b ∈ reads, b ≠ []) (hf : reads.flatten = textOf sign eol (hd :: rows) ++ t) :
    openCsv junk c reads = some ⟨headOf hd, hd :: rows⟩ := by
  have hs10 : sign ≠ 10 := by
    rintro rfl
    apply hs
    rcases he with rfl | rfl <;> decide
  obtain ⟨ls, h1, h2, h3⟩ := text_feed (sign := sign) he hs10 (rows := hd :: rows) fun r hr c hc hx => (((h r hr).2 c hc).plain _ hx).2.1 rfl
  rw [h1] at hf
  rw [openCsv, file_lines junk hr hf h2 ht, h3, ← hsign, Option.map_some, List.map_cons, List.foldl_cons]
  obtain ⟨g1, g2⟩ := h hd (by simp)
  have hr : 0 < hd.length := List.length_pos_iff.2 g1
  have : addLine sign ⟨[], []⟩ (join sign hd ++ eol) = ⟨headOf hd, [hd]⟩ := by
    simp only [addLine, loadList_row he hs g1 g2, if_pos hr]
    rfl
  rw [this, addLines he hs rows _ (fun r hr => h r (by simp [hr])) (fold_pos _ _ (.inl (by simpa using g1)))]
  simp

theorem getN_setN {α : Type} (l : List (Bytes × α)) (k n : Bytes) (v : α) :
    Dyn.getN (Dyn.setN l k v).1 n = if Dyn.sameN n k then some v else Dyn.getN l n := by
  induction l with
  | nil => by_cases h : Dyn.sameN n k <;> simp [Dyn.setN, Dyn.getN, h]
  | cons e l ih =>
    have hi : ∀ a b, Dyn.sameN a b = true ↔ a.map lower = b.map lower := by intro a b; simp [Dyn.sameN]
    by_cases hk : Dyn.sameN k e.1
    · rw [Dyn.setN, if_pos hk]
      by_cases hn : Dyn.sameN n k
      · have : Dyn.sameN n e.1 = true := (hi _ _).2 (((hi _ _).1 hn).trans ((hi _ _).1 hk))
        simp [Dyn.getN, hn, this]
      · have : Dyn.sameN n e.1 = false := by
          apply Bool.eq_false_iff.2
          intro hx
          exact hn ((hi _ _).2 (((hi _ _).1 hx).trans ((hi _ _).1 hk).symm))
        simp [Dyn.getN, hn, this]
    · rw [Dyn.setN, if_neg hk]
      unfold Dyn.getN at ih ⊢
      rw [List.find?_cons, List.find?_cons]
      by_cases hn : Dyn.sameN n e.1
      · have : ¬ Dyn.sameN n k = true := by
          intro hx
          exact hk ((hi _ _).2 (((hi _ _).1 hx).symm.trans ((hi _ _).1 hn)))
        simp [hn, this]
      · simp only [hn, ih]

theorem fold_get (n : Bytes) : ∀ (hs : List Bytes) (i : Nat) (h : List (Bytes × Nat)),
    Dyn.getN ((hs.zipIdx i).foldl (fun h e => (Dyn.setN h e.1 e.2).1) h) n =
      (((hs.zipIdx i).reverse.find? fun e => Dyn.sameN n e.1).map (·.2)).or (Dyn.getN h n) := by
  intro hs
  induction hs with
  | nil => intro i h; simp
  | cons a hs ih =>
    intro i h
    rw [List.zipIdx_cons, List.foldl_cons, ih, getN_setN, List.reverse_cons, List.find?_append]
    cases hf : ((hs.zipIdx (i + 1)).reverse.find? fun e => Dyn.sameN n e.1) with
    | some e => simp
    | none =>
      by_cases hk : Dyn.sameN n a <;> simp [hk]

theorem headOf_column {hs : List Bytes} {name : Bytes} {j : Nat} (h : Column hs name j) : Dyn.getN (headOf hs) name = some j := by
  have hi : ∀ a b, Dyn.sameN a b = true ↔ a.map lower = b.map lower := by intro a b; simp [Dyn.sameN]
  obtain ⟨⟨x, hx1, hx2⟩, hlast⟩ := h
  rw [headOf, fold_get]
  have hm : (x, j) ∈ hs.zipIdx := by
    rw [List.mem_zipIdx_iff_getElem?]; simpa using hx1
  have hsome : ((hs.zipIdx).reverse.find? fun e => Dyn.sameN name e.1) = some (x, j) := by
    obtain ⟨hjl, hje⟩ := List.getElem?_eq_some_iff.1 hx1
    have hsplit : hs.zipIdx = (hs.zipIdx).take j ++ (x, j) :: (hs.zipIdx).drop (j + 1) := by
      have hjz : j < hs.zipIdx.length := by simpa using hjl
      have : hs.zipIdx[j] = (x, j) := by simp [hje]
      rw [← this, ← List.drop_eq_getElem_cons hjz, List.take_append_drop]
    rw [hsplit, List.reverse_append, List.reverse_cons, List.append_assoc, List.find?_append]
    have hnone : (((hs.zipIdx).drop (j + 1)).reverse.find? fun e => Dyn.sameN name e.1) = none := by
      rw [List.find?_eq_none]
      intro e he hsame
      rw [List.mem_reverse] at he
      obtain ⟨k, hk⟩ := List.getElem?_of_mem he
      rw [List.getElem?_drop, List.getElem?_zipIdx] at hk
      cases hg : hs[j + 1 + k]? with
      | none => rw [hg] at hk; simp at hk
      | some y =>
        rw [hg] at hk
        have he' : (y, j + 1 + k) = e := by simpa using hk
        rw [← he'] at hsame
        exact hlast (j + 1 + k) y (by omega) hg ((hi _ _).1 hsame).symm
    rw [hnone]
    have hs' : Dyn.sameN name x = true := (hi _ _).2 hx2.symm
    simp [hs']
  rw [hsome]
  rfl

theorem headOf_none {hs : List Bytes} {name : Bytes} (h : ∀ x ∈ hs, x.map lower ≠ name.map lower) : Dyn.getN (headOf hs) name = none := by
  rw [headOf, fold_get]
  have : ((hs.zipIdx).reverse.find? fun e => Dyn.sameN name e.1) = none := by
    rw [List.find?_eq_none]
    intro e he hsame
    rw [List.mem_reverse] at he
    have := List.fst_mem_of_mem_zipIdx he
    apply h _ this
    simp [Dyn.sameN] at hsame
    exact hsame.symm
  rw [this]
  rfl

end Sis.Csv
