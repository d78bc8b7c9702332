import Verif.Sdb.ReadLemmas
/- What is known of the blocks of a database. -/
namespace Sis.Sdb
open Sis
open Sis.Dyn (Db)

/-- A block made of records that belong to its file, in the order of their times. -/
structure Made (v : Time.Env) (db : Db) (f : Dyn.Field) (u : Uid) (o : Nat × Nat × Bytes) (rs : List Bytes) : Prop where
  bytes : o.2.2 = rs.flatten
  len : ∀ r ∈ rs, r.length = db.size
  place : ∀ r ∈ rs, placeOf v f r = some u
  order : rs.Pairwise fun x y => timeOf f x ≤ timeOf f y
  first : ∃ x, rs.head? = some x ∧ timeOf f x = o.1
  last : ∃ x, rs.getLast? = some x ∧ timeOf f x = o.2.1

structure Content (v : Time.Env) (P : Db → Prop) (a : Abs) : Prop where
  defs : ∀ s db, a.defs s = some db → a.was s db
  was : ∀ s db, a.was s db → P db
  nots : ∀ k s l, a.rows k s .nots = some l → ∃ db, a.was s db ∧ timeField db = none
  rows : ∀ k s u l, u ≠ .nots → a.rows k s u = some l → l ≠ [] ∧ ∀ o ∈ l, ∃ db f rs, a.was s db ∧ timeField db = some f ∧ Made v db f u o rs

theorem placeOf_ne {v : Time.Env} {f : Dyn.Field} {r : Bytes} : placeOf v f r ≠ some .nots := by
  unfold placeOf
  cases dayOf v f (timeOf f r) with
  | none => simp
  | some n => simp; split <;> simp

theorem records_good {P : Db → Prop} (K : Tables P) {db : Db} (hp : P db) {d : Bytes} (hw : d.length % db.size = 0) :
    (recordsOf db d).flatten = d ∧ ∀ r ∈ recordsOf db d, r.length = db.size := by
  refine records_flatten db.size (K.size db hp).1 _ d ?_
  have := Nat.div_add_mod d.length db.size
  rw [hw, Nat.add_zero, Nat.mul_comm] at this
  exact this.symm

theorem act_content {v : Time.Env} {P : Db → Prop} (K : Tables P) {a : Abs} (h : Content v P a) {x : Act} (hx : Allowed v P a x) : Content v P (a.act v x) := by
  cases x with
  | keys ks => exact ⟨h.defs, h.was, h.nots, h.rows⟩
  | one k d => exact ⟨h.defs, h.was, h.nots, h.rows⟩
  | mul k l => exact ⟨h.defs, h.was, h.nots, h.rows⟩
  | tabs ts =>
    refine ⟨?_, ?_, ?_, ?_⟩
    · intro s db hs
      simp only [Abs.act] at hs ⊢
      cases hf : ts.find? (fun t => fold t.name == s) with
      | none => rw [hf] at hs; exact .inl (h.defs s db hs)
      | some t =>
        rw [hf] at hs
        exact .inr ⟨t, List.mem_of_find?_eq_some hf, by simpa using List.find?_some hf, Option.some.inj hs⟩
    · rintro s db (hs | ⟨t, ht, _, rfl⟩)
      · exact h.was s db hs
      · exact (hx.1 t ht).2
    · intro k s l hl
      obtain ⟨db, h1, h2⟩ := h.nots k s l hl
      exact ⟨db, .inl h1, h2⟩
    · intro k s u l hu hl
      obtain ⟨h1, h2⟩ := h.rows k s u l hu hl
      refine ⟨h1, fun o ho => ?_⟩
      obtain ⟨db, f, rs, h3, h4⟩ := h2 o ho
      exact ⟨db, f, rs, .inl h3, h4⟩
  | rows k s d =>
    cases hd : a.defs (fold s) with
    | none => simp only [Abs.act, hd]; exact h
    | some db =>
      have hblk := hx.2.2.2 db hd
      have hwas := h.defs _ _ hd
      simp only [Abs.act, hd]
      refine ⟨h.defs, h.was, ?_, ?_⟩
      · intro k' s' l hl
        simp only at hl
        split at hl
        · rename_i hks
          split at hl
          · rename_i hf
            exact ⟨db, by rw [hks.2]; exact hwas, hf⟩
          · rename_i f hf
            unfold addRecords at hl
            have : ((recordsOf db d).filter fun r => placeOf v f r == some Uid.nots) = [] := by
              rw [List.filter_eq_nil_iff]
              intro r _
              simpa using placeOf_ne
            rw [this] at hl
            exact h.nots _ _ _ hl
        · exact h.nots _ _ _ hl
      · intro k' s' u l hu hl
        simp only at hl
        split at hl
        · rename_i hks
          split at hl
          · exact h.rows _ _ u l hu hl
          · rename_i f hf
            unfold addRecords at hl
            simp only at hl
            generalize hm : ((recordsOf db d).filter fun r => placeOf v f r == some u) = mine at hl
            cases hx1 : mine.head? with
            | none =>
              rw [hx1] at hl
              exact h.rows _ _ u l hu hl
            | some x =>
              cases hx2 : mine.getLast? with
              | none =>
                rw [hx1, hx2] at hl
                exact h.rows _ _ u l hu hl
              | some y =>
                rw [hx1, hx2] at hl
                cases hl
                unfold addBlock
                refine ⟨by simp, fun o ho => ?_⟩
                rcases List.mem_append.1 ho with ho | ho
                · have ho := (List.mem_filter.1 ho).1
                  cases hold : a.rows k' s' u with
                  | none => rw [hold] at ho; cases ho
                  | some old => rw [hold] at ho; exact (h.rows _ _ u old hu hold).2 o ho
                · rw [List.mem_singleton.1 ho]
                  have hsub : ∀ r ∈ mine, r ∈ recordsOf db d ∧ placeOf v f r = some u := by
                    intro r hr
                    rw [← hm] at hr
                    exact ⟨(List.mem_filter.1 hr).1, by simpa using (List.mem_filter.1 hr).2⟩
                  have hg := records_good K (h.was _ _ hwas) hblk.whole
                  refine ⟨db, f, mine, by rw [hks.2]; exact hwas, hf, ⟨rfl, fun r hr => hg.2 r (hsub r hr).1, fun r hr => (hsub r hr).2, ?_, ⟨x, hx1, rfl⟩, ⟨y, hx2, rfl⟩⟩⟩
                  rw [← hm]
                  exact ((hblk.order f hf).imp fun hx => hx.1).filter _
        · exact h.rows _ _ u l hu hl

theorem acts_content {v : Time.Env} {P : Db → Prop} (K : Tables P) (as : List Act) : ∀ {a : Abs}, Content v P a →
    (∀ (pre : List Act) (x : Act) (post : List Act), as = pre ++ x :: post → Allowed v P (a.acts v pre) x) → Content v P (a.acts v as) := by
  induction as with
  | nil => intro a h _; exact h
  | cons x as ih =>
    intro a h hok
    exact ih (act_content K h (hok [] x as rfl)) (fun pre y post he => hok (x :: pre) y post (by rw [he]; rfl))

theorem hist_content {lib : Lib} {v : Time.Env} {P : Db → Prop} (K : Tables P) {d : Disk} {a : Abs} (h : Hist lib v P d a) : Content v P a := by
  induction h with
  | new => exact ⟨(fun s db h => by cases h), (fun s db h => by cases h), (fun k s l h => by cases h), (fun k s u l _ h => by cases h)⟩
  | session h s ih => exact acts_content K _ ih s.ok

/-- The records of all blocks, when a table had only one definition. -/
theorem all_records {v : Time.Env} {P : Db → Prop} (K : Tables P) {a : Abs} (h : Content v P a) {k s : Bytes} {db : Db} {f : Dyn.Field} (hd : a.was s db)
    (hone : ∀ x, a.was s x → x = db) (hf : timeField db = some f) {u : Uid} {l : List (Nat × Nat × Bytes)} (hu : u ≠ .nots) (hl : a.rows k s u = some l) :
    ∃ q : List (List Bytes), q.length = l.length ∧ allBytes l = q.flatten.flatten ∧ recordsOf db (allBytes l) = q.flatten ∧ ∀ (i : Nat) (o : Nat × Nat × Bytes) (rs : List Bytes), l[i]? = some o → q[i]? = some rs → Made v db f u o rs := by
  have hm : ∀ o ∈ l, ∃ rs, Made v db f u o rs := by
    intro o ho
    obtain ⟨db', f', rs, h1, h2, h3⟩ := (h.rows k s u l hu hl).2 o ho
    have := hone db' h1
    subst this
    rw [hf] at h2
    cases h2
    exact ⟨rs, h3⟩
  have hz := (K.size db (h.was s db hd)).1
  have key : ∀ l : List (Nat × Nat × Bytes), (∀ o ∈ l, ∃ rs, Made v db f u o rs) →
      ∃ q : List (List Bytes), q.length = l.length ∧ allBytes l = q.flatten.flatten ∧ (∀ r ∈ q.flatten, r.length = db.size) ∧ ∀ (i : Nat) (o : Nat × Nat × Bytes) (rs : List Bytes), l[i]? = some o → q[i]? = some rs → Made v db f u o rs := by
    intro l
    induction l with
    | nil => intro _; exact ⟨[], rfl, rfl, by simp, by simp⟩
    | cons o l ih =>
      intro hm
      obtain ⟨rs, hrs⟩ := hm o (by simp)
      obtain ⟨q, q1, q2, q3, q4⟩ := ih fun o ho => hm o (by simp [ho])
      refine ⟨rs :: q, by simp [q1], ?_, ?_, ?_⟩
      · simp only [allBytes] at q2
        simp only [allBytes, List.flatMap_cons, List.flatten_cons, List.flatten_append, hrs.bytes, q2]
      · intro r hr
        rw [List.flatten_cons] at hr
        rcases List.mem_append.1 hr with hr | hr
        · exact hrs.len r hr
        · exact q3 r hr
      · intro i o' rs' h1 h2
        cases i with
        | zero => cases h1; cases h2; exact hrs
        | succ i => exact q4 i o' rs' (by simpa using h1) (by simpa using h2)
  obtain ⟨q, q1, q2, q3, q4⟩ := key l hm
  exact ⟨q, q1, q2, by rw [q2, recordsOf_flatten hz q3], q4⟩

end Sis.Sdb
