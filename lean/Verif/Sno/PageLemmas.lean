import Verif.Sno.SnoSpec
import Verif.Sdb.UnitLemmas
/- Lemmas on the records of a page: how they are put in order and handed to a subscriber. -/
namespace Sis.Sno
open Sis Sis.Disk Sis.Sdb
open Sis.Dyn (sameN getN setN Db)

/-! ### Records with their numbers -/

def tagFrom : Nat → List Rec → List (Nat × Rec)
  | _, [] => []
  | i, r :: rs => (i, r) :: tagFrom (i + 1) rs

theorem tagFrom_append (as bs : List Rec) : ∀ i, tagFrom i (as ++ bs) = tagFrom i as ++ tagFrom (i + as.length) bs := by
  induction as with
  | nil => intro i; rfl
  | cons a as ih => intro i; simp only [List.cons_append, tagFrom, ih, List.length_cons]; congr 3; omega

theorem tagFrom_map (as : List Rec) : ∀ i, (tagFrom i as).map (·.2) = as := by
  induction as with
  | nil => intro i; rfl
  | cons a as ih => intro i; simp [tagFrom, ih]

theorem tagFrom_range (as : List Rec) : ∀ i, ∀ e ∈ tagFrom i as, i ≤ e.1 ∧ e.1 < i + as.length := by
  induction as with
  | nil => intro i e he; cases he
  | cons a as ih =>
    intro i e he
    rcases List.mem_cons.1 he with rfl | he
    · simp
    · have := ih _ e he; simp; omega

theorem tagFrom_sorted (as : List Rec) : ∀ i, (tagFrom i as).Pairwise fun a b => a.1 < b.1 := by
  induction as with
  | nil => intro i; exact .nil
  | cons a as ih =>
    intro i
    refine List.pairwise_cons.2 ⟨?_, ih _⟩
    intro e he
    have := tagFrom_range as _ e he
    simp; omega

theorem tagFrom_mem {as : List Rec} {i : Nat} {e : Nat × Rec} (h : e ∈ tagFrom i as) : e.2 ∈ as := by
  have := List.mem_map_of_mem (f := (·.2)) h
  rwa [tagFrom_map] at this

theorem filter_tag (p : Rec → Bool) (as : List Rec) : ∀ i, ((tagFrom i as).filter fun e => p e.2).map (·.2) = as.filter p := by
  induction as with
  | nil => intro i; rfl
  | cons a as ih =>
    intro i
    simp only [tagFrom, List.filter_cons]
    split <;> simp [ih]

/-- The records of a key and a table among those of a page, with their numbers. -/
def mine (pg : List Rec) (k s : Bytes) : List (Nat × Rec) := (tagFrom 0 pg).filter fun e => e.2.key == k && e.2.tab == s

theorem mine_mem {pg : List Rec} {k s : Bytes} {e : Nat × Rec} (h : e ∈ mine pg k s) : e ∈ tagFrom 0 pg ∧ e.2.key = k ∧ e.2.tab = s := by
  have := List.mem_filter.1 h
  simpa using this

theorem mine_append (as bs : List Rec) (k s : Bytes) :
    mine (as ++ bs) k s = mine as k s ++ (tagFrom as.length bs).filter fun e => e.2.key == k && e.2.tab == s := by
  unfold mine; rw [tagFrom_append, List.filter_append]; simp

/-- The bytes of records with their numbers. -/
def encQ (q : List (Nat × Rec)) : Bytes := q.flatMap fun e => catSsize e.1 ++ e.2.data

theorem encQ_append (p q : List (Nat × Rec)) : encQ (p ++ q) = encQ p ++ encQ q := by simp [encQ]

theorem numbered_enc (k s : Bytes) (rs : List Bytes) : ∀ i, numbered i rs = encQ (tagFrom i (rs.map fun r => ⟨k, s, r⟩)) := by
  induction rs with
  | nil => intro i; rfl
  | cons r rs ih => intro i; simp [numbered, tagFrom, encQ, ih]

theorem splitRecs_enc (size : Nat) (q : List (Nat × Rec)) (h : ∀ e ∈ q, e.1 < 2 ^ 31 ∧ e.2.data.length = size) : ∀ f, (encQ q).length ≤ f →
    splitRecs size f (encQ q) = some (q.map fun e => (e.1, e.2.data)) := by
  induction q with
  | nil => intro f _; cases f <;> simp [splitRecs, encQ]
  | cons e q ih =>
    intro f hf
    have he := h e (by simp)
    have hp := catSsize_pos e.1
    have hl : encQ (e :: q) = catSsize e.1 ++ (e.2.data ++ encQ q) := by simp [encQ]
    rw [hl] at hf ⊢
    simp only [List.length_append] at hf
    cases f with
    | zero => omega
    | succ f =>
      rw [splitRecs, if_neg (by intro h; have := congrArg List.length h; simp only [List.length_append, List.length_nil] at this; omega)]
      rw [C01_ssize_roundtrip _ (by omega)]
      simp only [Option.bind_some]
      rw [if_pos he.1, ← he.2, takeBytes_append]
      simp only [Option.bind_some]
      rw [he.2, ih (fun e he => h e (by simp [he])) f (by omega)]
      simp

/-! ### Slots -/

theorem setSlot_filter (T : List (Nat × Rec)) (hT : T.Pairwise fun a b => a.1 < b.1) (p : Nat × Rec → Bool) {i : Nat} {r : Rec} (h : (i, r) ∈ T) :
    setSlot (T.filter p) i r = T.filter fun e => p e || e == (i, r) := by
  induction T with
  | nil => cases h
  | cons t T ih =>
    have hT' := List.pairwise_cons.1 hT
    have htail : ∀ x ∈ T.filter p, t.1 < x.1 := fun x hx => hT'.1 x (List.mem_filter.1 hx).1
    rcases List.mem_cons.1 h with h | h
    · subst h
      have hrest : T.filter (fun e => p e || e == (i, r)) = T.filter p := by
        apply List.filter_congr
        intro x hx
        have := hT'.1 x hx
        have hne : x ≠ (i, r) := by intro e; rw [e] at this; simp at this
        simp [hne]
      rw [List.filter_cons, List.filter_cons]
      simp only [BEq.rfl, Bool.or_true, if_true, hrest]
      split
      · simp [setSlot]
      · cases hf : T.filter p with
        | nil => simp [setSlot]
        | cons x l =>
          have := htail x (by rw [hf]; simp)
          simp only [setSlot]
          rw [if_pos this]
    · have hlt := hT'.1 _ h
      have hne : t ≠ (i, r) := by intro e; rw [e] at hlt; simp at hlt
      rw [List.filter_cons, List.filter_cons]
      have hb : (t == (i, r)) = false := by simpa using hne
      simp only [hb, Bool.or_false]
      split
      · simp only [setSlot]
        simp only at hlt
        rw [if_neg (by omega), if_neg (by omega), ih hT'.2 h]
      · exact ih hT'.2 h

theorem slots_filter (T : List (Nat × Rec)) (hT : T.Pairwise fun a b => a.1 < b.1) (l : List (Nat × Rec)) : ∀ (p : Nat × Rec → Bool), (∀ e ∈ l, e ∈ T) →
    l.foldl (fun rc e => setSlot rc e.1 e.2) (T.filter p) = T.filter fun e => p e || l.contains e := by
  induction l with
  | nil => intro p _; simp
  | cons x l ih =>
    intro p h
    rw [List.foldl_cons, setSlot_filter T hT p (h x (by simp)), ih _ fun e he => h e (by simp [he])]
    apply List.filter_congr
    intro e _
    rw [List.contains_cons, Bool.or_assoc]

/-! ### One block -/

/-- The name of a table and the size of its records. -/
def tabView (sd : TDict) : List (Bytes × Nat) := sd.map fun e => (e.1, (e.2.getLast?.map (·.size)).getD 0)

/-- The content of a block with records of one key and one table. -/
structure Content (kd : List Bytes) (tv : List (Bytes × Nat)) (m : Bytes) (k s : Bytes) (q : List (Nat × Rec)) : Prop where
  bytes : ∃ ki si size, m = catSsize ki ++ catSsize si ++ encQ q ∧ ki < 2 ^ 31 ∧ si < 2 ^ 31 ∧ kd[ki]? = some k ∧ tv[si]? = some (s, size) ∧ 0 < size ∧
    ∀ e ∈ q, e.1 < 2 ^ 31 ∧ e.2.data.length = size
  recs : ∀ e ∈ q, e.2.key = k ∧ e.2.tab = s

theorem Content.mono {kd kd' : List Bytes} {tv tv' : List (Bytes × Nat)} {m k s : Bytes} {q : List (Nat × Rec)} (h : Content kd tv m k s q)
    (hk : kd <+: kd') (ht : tv <+: tv') : Content kd' tv' m k s q := by
  obtain ⟨⟨ki, si, size, h1, h2, h3, h4, h5, h6⟩, h7⟩ := h
  obtain ⟨x, rfl⟩ := hk
  obtain ⟨y, rfl⟩ := ht
  refine ⟨⟨ki, si, size, h1, h2, h3, ?_, ?_, h6⟩, h7⟩
  · rw [List.getElem?_append_left (List.getElem?_eq_some_iff.1 h4).1]; exact h4
  · rw [List.getElem?_append_left (List.getElem?_eq_some_iff.1 h5).1]; exact h5

theorem readHid_content {c : Ctl} {m k s : Bytes} {q : List (Nat × Rec)} (h : Content c.kd (tabView c.sd) m k s q) (rc : List (Nat × Rec)) :
    readHid c rc m = some (q.foldl (fun rc e => setSlot rc e.1 e.2) rc) := by
  obtain ⟨⟨ki, si, size, rfl, h2, h3, h4, h5, h6, h7⟩, h8⟩ := h
  unfold readHid
  rw [List.append_assoc, C01_ssize_roundtrip _ (by omega)]
  simp only [Option.bind_some]
  rw [C01_ssize_roundtrip _ (by omega)]
  simp only [Option.bind_some]
  unfold tabView at h5
  rw [List.getElem?_map] at h5
  obtain ⟨⟨s', dbs⟩, h9, h10⟩ := Option.map_eq_some_iff.1 h5
  simp only [Prod.mk.injEq] at h10
  obtain ⟨rfl, h10⟩ := h10
  have hn : ∀ {α : Type} (l : List α) (i : Nat), i < 2 ^ 31 → nth l i = l[i]? := by
    intro α l i hi
    unfold nth; rw [Nat.mod_eq_of_lt (by omega), if_pos hi]
  rw [hn _ _ h2, hn _ _ h3, h4, h9]
  simp only
  cases hd : dbs.getLast? with
  | none => rw [hd] at h10; simp at h10; omega
  | some db =>
    rw [hd] at h10
    simp only [Option.map_some, Option.getD_some] at h10
    simp only [Option.bind_some]
    unfold pushRecs
    rw [h10, if_neg (by omega), splitRecs_enc size q h7 _ (Nat.le_refl _)]
    simp only [Option.map_some, List.foldl_map]
    congr 1
    clear h7 h5
    induction q generalizing rc with
    | nil => rfl
    | cons e q ih =>
      have he := h8 e (by simp)
      have : (⟨k, s', e.2.data⟩ : Rec) = e.2 := by rw [← he.1, ← he.2]
      rw [List.foldl_cons, List.foldl_cons, this]
      exact ih _ (fun e he => h8 e (by simp [he]))

theorem Content.ne {kd : List Bytes} {tv : List (Bytes × Nat)} {m k s : Bytes} {q : List (Nat × Rec)} (h : Content kd tv m k s q) : m ≠ [] := by
  obtain ⟨⟨ki, si, size, rfl, _⟩, _⟩ := h
  have := catSsize_pos ki
  intro e
  have := congrArg List.length e
  simp only [List.length_append, List.length_nil] at this
  omega

/-! ### The subscriber -/

theorem deliver_stop (quit : List Rec → Bool) (h : Heard) (hh : h.2 = true) (rs : List Rec) : deliver quit h rs = h := by
  cases rs with
  | nil => rfl
  | cons r rs => simp [deliver, hh]

theorem deliver_append (quit : List Rec → Bool) (as bs : List Rec) : ∀ h : Heard, deliver quit h (as ++ bs) = deliver quit (deliver quit h as) bs := by
  induction as with
  | nil => intro h; rfl
  | cons a as ih =>
    intro h
    simp only [List.cons_append, deliver]
    split
    · rename_i hh; rw [deliver_stop quit h hh]
    · exact ih _

theorem deliver_hears (quit : List Rec → Bool) (rs : List Rec) : ∀ (g : List Rec), (∀ p, p <+: g → p ≠ g → quit p = false) →
    Hears quit (g ++ rs) (deliver quit (g, quit g) rs).1 (deliver quit (g, quit g) rs).2 := by
  induction rs with
  | nil => intro g hg; exact ⟨by simp [deliver], hg, rfl, fun _ => by simp [deliver]⟩
  | cons r rs ih =>
    intro g hg
    simp only [deliver]
    cases hq : quit g with
    | true =>
      simp only [if_true]
      exact ⟨⟨r :: rs, rfl⟩, hg, hq.symm, fun h => by cases h⟩
    | false =>
      simp only [Bool.false_eq_true, if_false]
      have := ih (g ++ [r]) (by
        intro p hp hne
        rcases List.prefix_concat_iff.1 hp with h | h
        · exact absurd h hne
        · by_cases hpg : p = g
          · rw [hpg]; exact hq
          · exact hg p h hpg)
      simpa using this

theorem hears_start (quit : List Rec → Bool) (rs : List Rec) :
    Hears quit rs (deliver quit ([], quit []) rs).1 (deliver quit ([], quit []) rs).2 := by
  have := deliver_hears quit rs [] (by
    intro p hp hne
    exact absurd (List.prefix_nil.1 hp) hne)
  simpa using this

end Sis.Sno
